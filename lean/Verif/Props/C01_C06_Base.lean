import Verif.Lemmas.Output
import Verif.Lemmas.Stream
/-!
# C01–C06: object numbers, file structure, repeatability, streams
-/
namespace Verif
open Spec

/-! ## C01 -/

/-- C01 (numbering): after any history on a new `PDFBase`, `len` is the number of accepted adds, and
the next accepted `add` returns the next id, is found under that id, and a rejected one raises and
changes nothing. -/
theorem C01_ids_consecutive (flate : Bytes → Bytes) (v : Str) (t : List (Key × Obj))
    (ops : List BaseOp) (o : Obj) :
    let s := (Base.new v t).run flate ops
    s.len = acceptedAdds ops ∧
    s.getItem 0 = .ok none ∧
    (o ≠ .other → ∃ p, (s.add o).1 = .ok p ∧ p.id = acceptedAdds ops + 1 ∧
      p.value = o ∧ (s.add o).2.getItem p.id = .ok (some p)) ∧
    (o = .other → s.add o = (.error .typeError, s)) := by
  intro s
  have hlen := run_length flate (Base.new v t) ops (by simp [Base.new])
  have hl : s.content.length = acceptedAdds ops := by
    have := hlen.2
    simp only [Base.new, List.length_nil, Nat.zero_add] at this
    exact this
  have hc : s.count = acceptedAdds ops + 1 := by
    have := hlen.1
    rw [show (Base.run flate (Base.new v t) ops).content.length = acceptedAdds ops from hl] at this
    exact this
  refine ⟨hl, rfl, ?_, ?_⟩
  · intro ho
    have hadd : s.add o = (.ok ⟨s.count, o⟩,
        { s with content := s.content ++ [⟨s.count, o⟩], count := s.count + 1 }) := by
      cases o <;> simp_all [Base.add, allowedType]
    refine ⟨⟨s.count, o⟩, by rw [hadd], hc, rfl, ?_⟩
    rw [hadd]
    simp only [Base.getItem]
    have h1 : ¬ ((s.count : Int) = 0) := by omega
    have h3 : ((s.count : Int) - 1) = ((acceptedAdds ops : Nat) : Int) := by omega
    rw [if_neg h1, h3]
    simp only [pyIndex]
    have h4 : ¬ (((acceptedAdds ops : Nat) : Int) < 0) := by omega
    simp only [h4, if_false, Int.toNat_natCast]
    rw [List.getElem?_append_right (by omega), hl]
    simp
  · rintro rfl
    rfl

/-- C01 (lookup): 0 gives nothing, a positive number gives the object with that place, a negative one counts
from the end of the table as a Python list does, but with the place 0 counted too: -1 is the object before the last
one. Every other number raises. -/
theorem C01_lookup (s : Base) (i : Int) :
    (i = 0 → s.getItem i = .ok none) ∧
    (0 < i → i ≤ s.len → ∃ p, s.content[i.toNat - 1]? = some p ∧ s.getItem i = .ok (some p)) ∧
    (i < 0 → 0 < s.len + i → s.getItem i = s.getItem (s.len + i)) ∧
    (i < 0 ∧ s.len + i ≤ 0 ∨ s.len < i → s.getItem i = .error .indexError) := by
  have hget : i ≠ 0 → s.getItem i = match pyIndex s.content (i - 1) with
      | .ok x => .ok (some x)
      | .error e => .error e := fun h => by rw [Base.getItem, if_neg h]; cases pyIndex s.content (i - 1) <;> rfl
  have hin : ∀ n, n < s.content.length → ∃ p, s.content[n]? = some p := fun n hn => ⟨_, List.getElem?_eq_getElem hn⟩
  simp only [Base.len]
  refine ⟨fun h => by rw [h]; rfl, fun h1 h2 => ?_, fun h1 h2 => ?_, fun h => ?_⟩
  · obtain ⟨p, hp⟩ := hin (i.toNat - 1) (by omega)
    refine ⟨p, hp, ?_⟩
    rw [hget (by omega), pyIndex, if_neg (by omega), if_neg (by omega), show (i - 1).toNat = i.toNat - 1 by omega, hp]
  · rw [hget (by omega), Base.getItem, if_neg (by omega)]
    have e : pyIndex s.content (i - 1) = pyIndex s.content (s.content.length + i - 1) := by
      simp only [pyIndex]
      rw [if_pos (by omega : i - 1 < 0), if_neg (by omega : ¬ ((s.content.length : Int) + i - 1 < 0)),
        show i - 1 + s.content.length = (s.content.length : Int) + i - 1 by omega]
    rw [e]
    rfl
  · have : pyIndex s.content (i - 1) = .error .indexError := by
      simp only [pyIndex]
      rcases h with ⟨h1, h2⟩ | h
      · rw [if_pos (by omega : i - 1 < 0), if_pos (by omega)]
      · rw [if_neg (by omega : ¬ i - 1 < 0), if_neg (by omega), List.getElem?_eq_none (by omega)]
    rw [hget (by omega), this]

/-- -1 is the object before the last one -/
example : (((Base.new c!"1.5" []).run id [.add (.int 5), .add (.int 6), .add (.int 7)]).getItem (-1)).toOption.join.map PDFObj.id = some 2 := by
  decide +kernel

/-- C01 (stability): an object already added is not affected by later adds nor by assignments to other
ids. -/
theorem C01_ids_stable (flate : Bytes → Bytes) (s : Base) (k : Nat) (p : PDFObj) (ops : List BaseOp)
    (hk : 0 < k) (hp : s.getItem k = .ok (some p))
    (hops : ∀ op ∈ ops, (∃ o, op = .add o) ∨ (∃ i v, op = .set i v ∧ i ≠ k)) :
    (s.run flate ops).getItem k = .ok (some p) := by
  induction ops generalizing s with
  | nil => exact hp
  | cons op ops ih =>
    simp only [Base.run, List.foldl_cons]
    refine ih (s.step flate op) ?_ (fun o ho => hops o (by simp [ho]))
    rw [getItem_pos hk] at hp ⊢
    cases hg : s.content[k - 1]? with
    | none => simp [hg] at hp
    | some x =>
      rw [hg] at hp
      simp only [Except.ok.injEq, Option.some.injEq] at hp
      subst hp
      have hlt : k - 1 < s.content.length := by
        rw [List.getElem?_eq_some_iff] at hg
        exact hg.1
      suffices (s.step flate op).content[k - 1]? = some x by rw [this]
      rcases hops op (by simp) with ⟨o, rfl⟩ | ⟨i, v, rfl, hi⟩
      · simp only [Base.step, Base.add]
        split
        · exact hg
        · simp only
          rw [List.getElem?_append_left hlt]
          exact hg
      · simp only [Base.step, Base.setItem]
        split
        · split
          · simp only
            rw [List.getElem?_set_ne (by omega)]
            exact hg
          · exact hg
        · exact hg

/-- C01: an assignment is visible under its id; assignments to ids that do not exist raise and ids
that are not positive are ignored. -/
theorem C01_setItem (s : Base) (i : Int) (v : PDFObj) :
    (0 < i → i ≤ s.len → (s.setItem i v).2.getItem i = .ok (some v)) ∧
    ((s.len : Int) < i → s.setItem i v = (.error .indexError, s)) ∧
    (i ≤ 0 → s.setItem i v = (.ok (), s)) := by
  refine ⟨?_, ?_, ?_⟩
  · intro h1 h2
    simp only [Base.len] at h2
    obtain ⟨k, rfl⟩ : ∃ k : Nat, i = k := ⟨i.toNat, by omega⟩
    rw [getItem_pos (by omega)]
    have h3 : ((k : Int) - 1).toNat = k - 1 := by omega
    simp only [Base.setItem, h1, if_true, h3]
    rw [if_pos (by omega)]
    simp only
    rw [List.getElem?_set_self (by omega)]
  · intro h
    simp only [Base.len] at h
    simp only [Base.setItem]
    rw [if_pos (by omega), if_neg (by omega)]
  · intro h
    simp only [Base.setItem]
    rw [if_neg (by omega)]

example : acceptedAdds [.add (.int 4), .add .other, .set 1 ⟨1, .int 5⟩, .output [] [], .add (.dict [])]
    = 2 := rfl

/-! ## C02, C03 -/

/-- C02 and the xref half of C03. In the file written by a successful `output` on any state reached
from a new `PDFBase`: the number after `startxref` is the position of `xref`; the subsection header is
`0 n` with `n` one more than the number of objects; and the `k`-th in-use entry has 20 bytes and holds
in 10 digits the position of `k 0 obj`, followed there by the serialised object and `endobj`. -/
theorem C02_xref_points_at_objects (flate : Bytes → Bytes) (v : Str) (t : List (Key × Obj))
    (ops : List BaseOp) (u1 u2 : Bytes)
    (hok : (((Base.new v t).run flate ops).output flate u1 u2).err = none)
    (hsmall : (((Base.new v t).run flate ops).output flate u1 u2).written.length < 10 ^ 10) :
    let s := (Base.new v t).run flate ops
    let file := (s.output flate u1 u2).written
    ∃ (xrefPos : Nat) (xrefDigits sizeDigits : Bytes),
      b!"\nstartxref\n" ++ xrefDigits ++ b!"\n%%EOF" <:+ file ∧
      isDecimal xrefDigits = true ∧ decVal xrefDigits = xrefPos ∧
      isDecimal sizeDigits = true ∧ decVal sizeDigits = s.len + 1 ∧
      At file xrefPos (b!"xref\n0 " ++ sizeDigits ++ b!"\n0000000000 65535 f \n") ∧
      ∀ k, (hk : k < s.content.length) → ∃ (off : Nat) (digits numDigits body : Bytes),
        digits.length = 10 ∧ isDecimal digits = true ∧ decVal digits = off ∧
        At file (xrefPos + (b!"xref\n0 " ++ sizeDigits ++ b!"\n").length + 20 * (k + 1))
          (digits ++ b!" 00000 n \n") ∧
        isDecimal numDigits = true ∧ decVal numDigits = k + 1 ∧
        (parseObj flate s.content[k].value).1 = .ok (some body) ∧
        At file off (numDigits ++ b!" 0 obj\n" ++ body ++ b!"\nendobj\n") := by
  intro s file
  exact xref_points flate s u1 u2
    (run_length flate (Base.new v t) ops (by simp [Base.new])).1 hok hsmall

/-- The hypotheses are met: a base with a dict, a stream and a string object. -/
example : (((Base.new c!"1.5" []).run id [.add (.dict [(.str c!"A", .int 1)]),
      .add (.dict [(kStream, .bytes b!"abc")]), .add (.str c!"x)")]).output id b!"00" b!"11").err = none
    ∧ (((Base.new c!"1.5" []).run id [.add (.dict [(.str c!"A", .int 1)]),
      .add (.dict [(kStream, .bytes b!"abc")]), .add (.str c!"x)")]).output id b!"00" b!"11").written.length
        < 10 ^ 10 := by decide +kernel

/-- C03: the trailer that is written (and read back by a PDF reader when the user's trailer entries
have a PDF meaning) has `Size` equal to the number of objects plus one, whatever the caller's trailer
said. -/
theorem C03_trailer_size (flate : Bytes → Bytes) (v : Str) (t : List (Key × Obj))
    (ops : List BaseOp) (u1 u2 : Bytes)
    (hok : (((Base.new v t).run flate ops).output flate u1 u2).err = none) :
    let s := (Base.new v t).run flate ops
    ∃ (trailer : List (Key × Obj)) (bytes : Bytes),
      (parseObj flate (.dict trailer)).1 = .ok (some bytes) ∧
      dget (.str c!"Size") trailer = some (.int (s.len + 1)) ∧
      (∀ k, k ≠ .str c!"Size" → k ≠ .str c!"ID" → dget k trailer = dget k s.trailer) ∧
      b!"trailer\n" ++ bytes ++ b!"\nstartxref\n" <:+: (s.output flate u1 u2).written := by
  intro s
  have hcount : s.count = s.content.length + 1 :=
    (run_length flate (Base.new v t) ops (by simp [Base.new])).1
  obtain ⟨_, _, tr, t3, htr, hw, _⟩ := output_ok hok
  refine ⟨trailerOf u1 u2 s, tr, ?_, ?_, ?_, ?_⟩
  · rw [htr]
  · have hs : dget kSize (dset kSize (.int s.count) s.trailer) = some (.int s.count) :=
      dget_dset_self _ _ _
    have hv : (.int s.count : Obj) = .int (s.len + 1) := by rw [hcount]; simp [Base.len]
    change dget kSize _ = _
    unfold trailerOf
    split
    · rw [hs, hv]
    · rw [dget_dset_ne (by simp [kID, kSize]), hs, hv]
  · intro k h1 h2
    change k ≠ kSize at h1
    change k ≠ kID at h2
    unfold trailerOf
    split
    · rw [dget_dset_ne (Ne.symm h1)]
    · rw [dget_dset_ne (Ne.symm h2), dget_dset_ne (Ne.symm h1)]
  · change _ <:+: (s.output flate u1 u2).written
    have hw : (s.output flate u1 u2).written = _ := hw
    rw [hw]
    refine ⟨headerOf s ++ allBytes flate 0 s.content ++
      (b!"\nxref\n0 " ++ (natStr s.count).map latin1 ++ b!"\n0000000000 65535 f \n" ++
          allXref flate 0 (headerOf s).length s.content),
      (natStr ((headerOf s).length + (allBytes flate 0 s.content).length + 1)).map latin1 ++
        b!"\n%%EOF", ?_⟩
    simp only [List.append_assoc]
    rfl

/-- A caller's stale `Size` is replaced. -/
example : dget kSize (trailerOf [] [] ((Base.new c!"1.5" [(kSize, .int 99)]).run id
    [.add (.int 1), .add (.int 2)])) = some (.int 3) := by rfl

/-! ## C05 -/

/-- The data a stream value stands for: the bytes, or the concatenation of the values of a dict. -/
def streamData : Obj → Option Bytes
  | .bytes b => some b
  | .dict d => d.foldr (fun p acc => match p.2, acc with
      | .bytes b, some r => some (b ++ r)
      | _, _ => none) (some [])
  | _ => none

/-- C05: serialising a stream dict writes a dictionary and the (filtered) data; the dictionary written
is that of the other entries with `Length` equal to the number of data bytes; afterwards the stream
data and the skip flag are still in the dict and the other entries are as `parse_obj` leaves them. -/
theorem C05_stream (flate : Bytes → Bytes) (items : List (Key × Obj)) (s : Obj) (b : Bytes)
    (hs : dget (.str c!"__stream__") items = some s)
    (h : (parseObj flate (.dict items)).1 = .ok (some b)) :
    ∃ (raw data head : Bytes) (plain after : List (Key × Obj)),
      streamData s = some raw ∧
      b = head ++ b!"stream\n" ++ data ++ b!"\nendstream" ∧
      -- the data: filtered exactly when there is a filter that is not skipped
      (data = if (dget (.str c!"Filter") items).isSome ∧
          ¬ ((dget (.str c!"__skip_filter__") items).map truthy = some true) then flate raw else raw) ∧
      -- the dictionary
      (parseObj flate (.dict plain)).1 = .ok (some head) ∧
      dget (.str c!"Length") plain = some (.int data.length) ∧
      dget (.str c!"__stream__") plain = none ∧ dget (.str c!"__skip_filter__") plain = none ∧
      (∀ k, k ≠ .str c!"Length" → k ≠ .str c!"__stream__" → k ≠ .str c!"__skip_filter__" →
        dget k plain = dget k items) ∧
      -- the dict afterwards
      (parseObj flate (.dict items)).2 = .dict after ∧
      dget (.str c!"__stream__") after = some s ∧
      ((dget (.str c!"__skip_filter__") after).map truthy = some true ↔
        (dget (.str c!"__skip_filter__") items).map truthy = some true) ∧
      (∀ k, k ≠ .str c!"Length" → k ≠ .str c!"__stream__" → k ≠ .str c!"__skip_filter__" →
        dget k after = (dget k items).map fun v => (parseObj flate v).2) := by
  exact stream_ok flate items s b hs h

/-- C05 as seen by a reader of the file: the dictionary in front of the data reads as a PDF dictionary
whose `Length` is the number of data bytes (when the other entries have a PDF meaning). -/
theorem C05_stream_read (flate : Bytes → Bytes) (items : List (Key × Obj)) (s : Obj) (b : Bytes)
    (ps : List (Bytes × PObj))
    (hs : dget (.str c!"__stream__") items = some s)
    (hm : meaningItems (items.filter fun p => p.1 ≠ .str c!"__stream__" ∧ p.1 ≠ .str c!"__skip_filter__")
      = some ps)
    (h : (parseObj flate (.dict items)).1 = .ok (some b)) :
    ∃ (data head : Bytes) (d : List (Bytes × PObj)),
      b = head ++ b!"stream\n" ++ data ++ b!"\nendstream" ∧ readObj head = some (.dict d) ∧
      d.find? (fun p => p.1 = b!"Length") = some (b!"Length", .int data.length) := by
  exact stream_read flate items s b ps hs hm h

example : (parseObj id (.dict [(kFilter, .bytes b!"/FlateDecode"), (kStream, .dict [(.int 0, .bytes b!"ab"),
    (.int 1, .bytes b!"c")]), (kLength, .int 77)])).1
    = .ok (some b!"<</Filter /FlateDecode/Length 3>>stream\nabc\nendstream") := by rfl

/-! ## C06 -/

/-- C06 is false: a failed serialisation of a stream always loses the stream data. -/
theorem C06_stream_lost (flate : Bytes → Bytes) (items : List (Key × Obj)) (e : PyErr)
    (hs : (dget (.str c!"__stream__") items).isSome)
    (h : (parseObj flate (.dict items)).1 = .error e) :
    ∃ after, (parseObj flate (.dict items)).2 = .dict after ∧
      dget (.str c!"__stream__") after = none :=
  stream_lost flate items e hs h

/-- A stream with a filter pdfme does not implement: the output fails and the data are gone, so
removing the filter afterwards cannot repair the document. -/
theorem C06_failed_serialisation_keeps_stream_false (flate : Bytes → Bytes) :
    ¬ ∀ (items : List (Key × Obj)) (s : Obj) (e : PyErr),
      dget (.str c!"__stream__") items = some s → (parseObj flate (.dict items)).1 = .error e →
      ∃ after, (parseObj flate (.dict items)).2 = .dict after ∧
        dget (.str c!"__stream__") after = some s := by
  intro h
  obtain ⟨after, h1, h2⟩ := h [(kFilter, .bytes b!"/LZWDecode"), (kStream, .bytes b!"data")]
    (.bytes b!"data") .notImplemented rfl rfl
  have : (parseObj flate (.dict [(kFilter, .bytes b!"/LZWDecode"), (kStream, .bytes b!"data")])).2
      = .dict [(kFilter, .bytes b!"/LZWDecode")] := rfl
  rw [this] at h1
  simp only [Obj.dict.injEq] at h1
  subst h1
  simp [dget, kFilter] at h2

/-- C06 for values that contain no stream: a serialisation, failed or not, never changes them.
Missing for the full statement: values containing streams, for which it is false (above). -/
theorem C06_failure_safe_partial (flate : Bytes → Bytes) (o : Obj) (h : noStream o = true) :
    (parseObj flate o).2 = o :=
  noStream_unchanged flate o h

example : noStream (.dict [(.str c!"A", .seq [.int 1, .other]), (.str c!"B", .dict [])]) = true := rfl
example : (parseObj id (.dict [(.str c!"A", .seq [.int 1, .other]), (.str c!"B", .dict [])])).1
    = .error .typeError := rfl

/-! ## C04 -/

/-- C04: if `output` succeeds, outputting again writes the same bytes whatever new random ids are
drawn, succeeds, and changes nothing more. -/
theorem C04_output_repeatable (flate : Bytes → Bytes) (s : Base) (u1 u2 v1 v2 : Bytes)
    (h : (s.output flate u1 u2).err = none) :
    ((s.output flate u1 u2).base.output flate v1 v2).err = none ∧
    ((s.output flate u1 u2).base.output flate v1 v2).written = (s.output flate u1 u2).written ∧
    ((s.output flate u1 u2).base.output flate v1 v2).base = (s.output flate u1 u2).base :=
  output_again flate s u1 u2 v1 v2 h

/-- C04: output leaves the objects as they were: same number, same ids, and values without streams
are exactly the same (for streams see `C05_stream`). -/
theorem C04_output_keeps_objects (flate : Bytes → Bytes) (s : Base) (u1 u2 : Bytes)
    (h : (s.output flate u1 u2).err = none) :
    (s.output flate u1 u2).base.content.map PDFObj.id = s.content.map PDFObj.id ∧
    ∀ (k : Nat) (o : PDFObj), s.content[k]? = some o → noStream o.value = true →
      (s.output flate u1 u2).base.content[k]? = some o := by
  obtain ⟨_, _, _, _, _, _, hb⟩ := output_ok h
  rw [hb]
  refine ⟨by simp [Function.comp_def], ?_⟩
  intro k o ho hn
  simp [List.getElem?_map, ho, noStream_unchanged flate o.value hn]

end Verif
