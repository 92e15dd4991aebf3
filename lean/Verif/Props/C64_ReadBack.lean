import Verif.Lemmas.Reader
import Verif.Props.C01_C06_Base
/-! C64: a PDF reader opens the file that is written and finds every object in it. -/
namespace Verif
open Spec

theorem stream_filter (flate : Bytes → Bytes) (items : List (Key × Obj)) (s f : Obj) (b : Bytes)
    (hs : dget kStream items = some s)
    (h : (parseObj flate (.dict items)).1 = .ok (some b))
    (hf : dget kFilter items = some f) (hk : ¬ ((dget kSkip items).map truthy = some true)) :
    f = .bytes b!"/FlateDecode" := by
  simp only [parseObj, hs] at h
  obtain ⟨raw, data, head, h1, h2, h3, h4, h5⟩ := parseStream_ok h
  have hsk := skipFlag_spec flate items
  have hb : skipFlag (Entry.delKey kStream (parseVals flate items)) = false := by
    cases hb : skipFlag (Entry.delKey kStream (parseVals flate items)) with
    | true => exact absurd (hsk.1 hb) hk
    | false => rfl
  rw [hb, delKey_parseVals, delKey_parseVals, find_parseVals, dget_ddel_ne (by simp [kSkip, kFilter]),
    dget_ddel_ne (by simp [kStream, kFilter]), hf] at h2
  simp only [encodeMaybe, Bool.not_false, if_true] at h2
  cases f with
  | bytes fb =>
    simp only [encodeStream] at h2
    split at h2
    · rename_i he; rw [he]
    · split at h2 <;> simp at h2
  | _ => simp [encodeStream] at h2

theorem read_back (flate : Bytes → Bytes) (s : Base) (u1 u2 : Bytes) (ps : List (Bytes × PObj))
    (hcount : s.count = s.content.length + 1)
    (hok : (s.output flate u1 u2).err = none)
    (hsmall : (s.output flate u1 u2).written.length < 10 ^ 10)
    (hu1 : 60 ∉ u1 ∧ 62 ∉ u1) (hu2 : 60 ∉ u2 ∧ 62 ∉ u2)
    (hst : dget (.str c!"__stream__") s.trailer = none) (hm : meaningItems s.trailer = some ps) :
    ∃ F, openFile (s.output flate u1 u2).written = some F ∧
      F.entries.length = s.len + 1 ∧
      Spec.lookup b!"Size" F.trailer = some (.int (s.len + 1)) ∧
      (∀ k, (k.all fun c => decide (c.toNat < 256)) = true → k ≠ c!"Size" → k ≠ c!"ID" →
        Spec.lookup (latinBytes k) F.trailer = (dget (.str k) s.trailer).bind meaning) ∧
      Spec.lookup b!"ID" F.trailer = (match dget (.str c!"ID") s.trailer with
        | some o => meaning o
        | none => some (.arr [.hex u1, .hex u2])) ∧
      (∀ n, n = 0 ∨ s.len < n → F.object n = none) ∧
      ∀ k, (hk : k < s.content.length) →
        (∀ p, meaning s.content[k].value = some p → F.object (k + 1) = some (p, none)) ∧
        ∀ items st q, s.content[k].value = .dict items → dget (.str c!"__stream__") items = some st →
          meaningItems (items.filter fun p =>
            p.1 ≠ .str c!"__stream__" ∧ p.1 ≠ .str c!"__skip_filter__") = some q →
          ∃ d data raw, F.object (k + 1) = some (.dict d, some data) ∧
            streamData st = some raw ∧
            Spec.lookup b!"Length" d = some (.int data.length) ∧
            (∀ key, (key.all fun c => decide (c.toNat < 256)) = true → key ≠ c!"Length" →
              key ≠ c!"__stream__" → key ≠ c!"__skip_filter__" →
              Spec.lookup (latinBytes key) d = (dget (.str key) items).bind meaning) ∧
            if (dget (.str c!"__skip_filter__") items).map truthy = some true then data = raw
            else ∀ inflate, (∀ x, inflate (flate x) = x) → decodeStream inflate d data = some raw := by
  obtain ⟨F, hF, hFb, hFf, hFe, hFt⟩ := file_opens flate s u1 u2 ps hcount hok hsmall hu1 hu2 hst hm
  refine ⟨F, hF, ?_, ?_, ?_, ?_, ?_, ?_⟩
  · rw [hFe]; simp [Base.len]
  · have h1 := lookup_meaning (k := c!"Size") (by decide) _ _ hFt
    have h2 : dget (.str c!"Size") (trailerOf u1 u2 s) = some (.int (s.len + 1)) := by
      have hv : (.int s.count : Obj) = .int (s.len + 1) := by rw [hcount]; simp [Base.len]
      have hs : dget kSize (dset kSize (.int s.count) s.trailer) = some (.int s.count) :=
        dget_dset_self _ _ _
      change dget kSize _ = _
      unfold trailerOf
      split
      · rw [hs, hv]
      · rw [dget_dset_ne (by simp [kID, kSize]), hs, hv]
    rw [h2] at h1
    exact h1
  · intro k hk h1 h2
    rw [lookup_meaning (k := k) hk _ _ hFt]
    congr 1
    have h1 : Key.str k ≠ kSize := by simpa [kSize] using h1
    have h2 : Key.str k ≠ kID := by simpa [kID] using h2
    unfold trailerOf
    split
    · rw [dget_dset_ne (Ne.symm h1)]
    · rw [dget_dset_ne (Ne.symm h2), dget_dset_ne (Ne.symm h1)]
  · have h1 := lookup_meaning (k := c!"ID") (by decide) _ _ hFt
    have hne : dget kID (dset kSize (.int s.count) s.trailer) = dget (.str c!"ID") s.trailer :=
      dget_dset_ne (by simp [kSize, kID]) _ _
    have e : latinBytes c!"ID" = b!"ID" := by decide
    rw [e] at h1
    rw [h1]
    change (dget kID (trailerOf u1 u2 s)).bind meaning = _
    unfold trailerOf
    cases hd : dget (.str c!"ID") s.trailer with
    | some o => rw [hne, hd]; simp only [hne, hd, Option.bind_some]
    | none =>
      rw [hne, hd]
      simp only [dget_dset_self, Option.bind_some, meaning, meaningList, meaning_trailerId hu1, meaning_trailerId hu2]
  · intro n hn
    simp only [PdfFile.object, hFf, hFe]
    rw [if_neg (by omega)]
    rcases hn with rfl | hn
    · simp
    · cases n with
      | zero => simp
      | succ n =>
        have : ¬ n < s.content.length := by simp only [Base.len] at hn; omega
        simp only [Nat.sub_zero, List.getElem?_cons_succ, List.getElem?_map]
        rw [List.getElem?_eq_none (by simpa using this)]
        rfl
  · intro k hk
    obtain ⟨body, rest, hbody, hat⟩ := file_at flate s u1 u2 hok k hk
    constructor
    · intro p hp
      obtain ⟨c, cs, t, hr, hl, hrd⟩ := obj_ok flate _ p hp
      rw [hbody] at hr
      simp only [Except.ok.injEq, Option.some.injEq] at hr
      subst hr
      exact file_object flate s F u1 u2 hFb hFf hFe k hk p none (by rw [hat, read_plain (k + 1) hl hrd])
    · intro items st q hv hs hq
      rw [hv] at hbody
      obtain ⟨raw, data, head, plain, after, g1, g2, g3, g4, g5, g6, g7, g8, -, -, -, -⟩ :=
        stream_ok flate items st body hs hbody
      have hps : (parseStream flate (parseVals flate items) st).1 = .ok (some body) := by
        have hb := hbody
        simp only [parseObj] at hb
        rw [show dget kStream items = some st from hs] at hb
        exact hb
      obtain ⟨raw', data', head', k1, k2, k3, k4, k5⟩ := parseStream_ok hps
      have hdd : ddel kSkip (ddel kStream items) = items.filter fun p => p.1 ≠ kStream ∧ p.1 ≠ kSkip := by
        simp only [ddel, List.filter_filter]
        congr 1
        funext p
        simp [Bool.and_comm]
      rw [streamEntries_parseVals] at k3
      obtain ⟨d, hd, hlen⟩ := meaningItems_length (n := data'.length) _ q hq
      have hst0 : dget kStream (plainOf data'.length items) = none := by
        rw [plainOf, dget_dset_ne (by simp [kLength, kStream]), dget_ddel_ne (by simp [kSkip, kStream]),
          dget_ddel_self]
      have hpm : meaningItems (plainOf data'.length items) = some d := by
        rw [plainOf, hdd]
        exact hd
      have hph : (parseObj flate (.dict (plainOf data'.length items))).1 = .ok (some head') := by
        simpa [parseObj, hst0, parseDict] using k3
      obtain ⟨hh, tt, e1, e2, e3⟩ := dict_closed hst0 hpm hph
      have hlen' : Spec.lookup b!"Length" d = some (.int data'.length) := by
        simp only [Spec.lookup, hlen, Option.map_some]
      have hlk : ∀ key, (key.all fun c => decide (c.toNat < 256)) = true → key ≠ c!"Length" →
              key ≠ c!"__stream__" → key ≠ c!"__skip_filter__" →
              Spec.lookup (latinBytes key) d = (dget (.str key) items).bind meaning := by
        intro key hkey n1 n2 n3
        rw [lookup_meaning (k := key) hkey _ _ hpm, dget_plainOf_ne (by simpa [kLength] using n1)
          (by simpa [kStream] using n2) (by simpa [kSkip] using n3)]
      have hdata : data' = data := by
        have hnum : ∀ a b : Nat, (natStr a).map latin1 = (natStr b).map latin1 → a = b := by
          intro a b hab
          rw [← decVal_natStr a, hab, decVal_natStr]
        -- both decompositions come from the same call
        have hraw : raw' = raw := by
          have := streamStr_spec st raw' k1
          rw [this] at g1
          exact Option.some.inj g1
        have hsk := skipFlag_spec flate items
        rw [delKey_parseVals, delKey_parseVals, find_parseVals, dget_ddel_ne (by simp [kSkip, kFilter]),
          dget_ddel_ne (by simp [kStream, kFilter]), ← delKey_parseVals] at k2
        rw [g3, ← hraw]
        cases hf : dget kFilter items with
        | none => simpa [encodeMaybe, hf] using k2.symm
        | some f =>
          rw [hf] at k2
          simp only [encodeMaybe] at k2
          cases hb : skipFlag (Entry.delKey kStream (parseVals flate items)) with
          | true =>
            rw [hb] at k2
            rw [if_neg (by simp [hsk.1 hb])]
            simpa using k2.symm
          | false =>
            rw [hb] at k2
            have hns : ¬ ((dget kSkip items).map truthy = some true) := by
              rw [← hsk, hb]; simp
            rw [if_pos ⟨by simp, hns⟩]
            simp only [Bool.not_false, if_true] at k2
            cases f with
            | bytes fb =>
              simp only [encodeStream] at k2
              split at k2
              · simpa using k2.symm
              · split at k2 <;> simp at k2
            | _ => simp [encodeStream] at k2
      refine ⟨d, data', raw, ?_, g1, hlen', hlk, ?_⟩
      · apply file_object flate s F u1 u2 hFb hFf hFe k hk
        rw [hat, k4, e1]
        exact read_stream (k + 1) e2 e3 hlen' rest
      · change if (dget kSkip items).map truthy = some true then _ else _
        split
        · rename_i hsk
          rw [hdata, g3, if_neg (by simp [hsk])]
        · rename_i hsk
          intro inflate hinf
          have hfl := hlk c!"Filter" (by decide) (by decide) (by decide) (by decide)
          have e : latinBytes c!"Filter" = b!"Filter" := by decide
          rw [e] at hfl
          cases hf : dget kFilter items with
          | none =>
            have hf' : dget (.str c!"Filter") items = none := hf
            rw [hf'] at hfl
            simp only [Option.bind_none] at hfl
            rw [decodeStream, hfl]
            simp only
            rw [hdata, g3, if_neg (by simp [hf])]
          | some f =>
            have hff := stream_filter flate items st f body hs hbody hf hsk
            subst hff
            have hf' : dget (.str c!"Filter") items = some (.bytes b!"/FlateDecode") := hf
            rw [hf'] at hfl
            have em : (some (Obj.bytes b!"/FlateDecode")).bind meaning = some (.name b!"FlateDecode") := by
              rfl
            rw [em] at hfl
            rw [decodeStream, hfl]
            simp only [if_true]
            rw [hdata, g3, if_pos ⟨by simp [hf], hsk⟩, hinf]

/-- C64. The file written by a successful `output` on any state reached from a new `PDFBase` opens in a
PDF reader that starts at the end of the file and follows the cross-reference table. `Size` and the other
trailer entries are as they should be. Under its number every object with a PDF meaning is found with
that meaning. Every stream is found with its dictionary and, after undoing the filter, with exactly the
bytes it was given. No other object number is in use. -/
theorem C64_file_reads_back (flate : Bytes → Bytes) (v : Str) (t : List (Key × Obj))
    (ops : List BaseOp) (u1 u2 : Bytes) (ps : List (Bytes × PObj))
    (hok : (((Base.new v t).run flate ops).output flate u1 u2).err = none)
    (hsmall : (((Base.new v t).run flate ops).output flate u1 u2).written.length < 10 ^ 10)
    (hu1 : 60 ∉ u1 ∧ 62 ∉ u1) (hu2 : 60 ∉ u2 ∧ 62 ∉ u2)
    (hst : dget (.str c!"__stream__") ((Base.new v t).run flate ops).trailer = none)
    (hm : meaningItems ((Base.new v t).run flate ops).trailer = some ps) :
    let s := (Base.new v t).run flate ops
    ∃ F, openFile (s.output flate u1 u2).written = some F ∧
      F.entries.length = s.len + 1 ∧
      Spec.lookup b!"Size" F.trailer = some (.int (s.len + 1)) ∧
      (∀ k, (k.all fun c => decide (c.toNat < 256)) = true → k ≠ c!"Size" → k ≠ c!"ID" →
        Spec.lookup (latinBytes k) F.trailer = (dget (.str k) s.trailer).bind meaning) ∧
      Spec.lookup b!"ID" F.trailer = (match dget (.str c!"ID") s.trailer with
        | some o => meaning o
        | none => some (.arr [.hex u1, .hex u2])) ∧
      (∀ n, n = 0 ∨ s.len < n → F.object n = none) ∧
      ∀ k, (hk : k < s.content.length) →
        (∀ p, meaning s.content[k].value = some p → F.object (k + 1) = some (p, none)) ∧
        ∀ items st q, s.content[k].value = .dict items → dget (.str c!"__stream__") items = some st →
          meaningItems (items.filter fun p =>
            p.1 ≠ .str c!"__stream__" ∧ p.1 ≠ .str c!"__skip_filter__") = some q →
          ∃ d data raw, F.object (k + 1) = some (.dict d, some data) ∧
            streamData st = some raw ∧
            Spec.lookup b!"Length" d = some (.int data.length) ∧
            (∀ key, (key.all fun c => decide (c.toNat < 256)) = true → key ≠ c!"Length" →
              key ≠ c!"__stream__" → key ≠ c!"__skip_filter__" →
              Spec.lookup (latinBytes key) d = (dget (.str key) items).bind meaning) ∧
            if (dget (.str c!"__skip_filter__") items).map truthy = some true then data = raw
            else ∀ inflate, (∀ x, inflate (flate x) = x) → decodeStream inflate d data = some raw := by
  intro s
  exact read_back flate s u1 u2 ps
    (run_length flate (Base.new v t) ops (by simp [Base.new])).1 hok hsmall hu1 hu2 hst hm

/-- a base with a dictionary, a stream and a string -/
def sampleBase : Base := (Base.new c!"1.5" [(.str c!"Root", .ref 1)]).run id
  [.add (.dict [(.str c!"A", .ref 3)]), .add (.dict [(.str c!"B", .int 7), (kStream, .bytes b!"endstream endobj")]),
    .add (.str c!"x)")]

/-- The hypotheses of the theorem are met by it, ... -/
example : (sampleBase.output id b!"00" b!"11").err = none ∧
    (sampleBase.output id b!"00" b!"11").written.length < 10 ^ 10 ∧
    meaningItems sampleBase.trailer = some [(b!"Root", .ref 1 0)] :=
  ⟨by decide +kernel, by decide +kernel, by rfl⟩

set_option maxRecDepth 16000 in
/-- ... and reading the file gives, by computation, the objects back (also a stream whose data looks like
the end of an object). -/
example : ((openFile (sampleBase.output id b!"00" b!"11").written).bind fun F => F.object 1)
    = some (.dict [(b!"A", .ref 3 0)], none) := by rfl
set_option maxRecDepth 16000 in
example : ((openFile (sampleBase.output id b!"00" b!"11").written).bind fun F => F.object 2)
    = some (.dict [(b!"B", .int 7), (b!"Length", .int 16)], some b!"endstream endobj") := by rfl
set_option maxRecDepth 16000 in
example : ((openFile (sampleBase.output id b!"00" b!"11").written).bind fun F => F.object 3)
    = some (.str b!"x)", none) := by rfl
set_option maxRecDepth 16000 in
/-- A damaged file does not open. -/
example : (openFile ((sampleBase.output id b!"00" b!"11").written.drop 1)).isNone = true := by rfl

end Verif
