import Verif.Lemmas.Output
import Verif.Lemmas.Roundtrip
/-! Lemmas about streams and about a second `output`. -/
namespace Verif
open Spec

/-- no dict inside the value has a `__stream__` key -/
def noStream : Obj → Bool
  | .dict items => noStreamItems items
  | .seq l => noStreamList l
  | .pobj v => noStream v
  | _ => true
where
  noStreamItems : List (Key × Obj) → Bool
  | [] => true
  | (k, v) :: l => k ≠ .str c!"__stream__" && noStream v && noStreamItems l
  noStreamList : List Obj → Bool
  | [] => true
  | v :: l => noStream v && noStreamList l

theorem dictLoop_unchanged {acc : Bytes} {es : List Entry} (h : ∀ e ∈ es, e.after = e.val) :
    (dictLoop acc es).2 = es.map fun e => (e.key, e.val) := by
  induction es generalizing acc with
  | nil => simp [dictLoop]
  | cons e es ih =>
    have h1 := h e (by simp)
    have h2 := fun acc => ih (acc := acc) fun e he => h e (by simp [he])
    unfold dictLoop
    split
    · simp
    · split <;> simp [h1, h2]

theorem listLoop_unchanged {acc : Bytes} {i : Nat} {es : List Elem} (h : ∀ e ∈ es, e.after = e.val) :
    (listLoop acc i es).2 = es.map fun e => e.val := by
  induction es generalizing acc i with
  | nil => simp [listLoop]
  | cons e es ih =>
    have h1 := h e (by simp)
    have h2 := fun acc i => ih (acc := acc) (i := i) fun e he => h e (by simp [he])
    unfold listLoop
    split <;> simp [h1, h2]

theorem noStreamItems_dget {l : List (Key × Obj)} (h : noStream.noStreamItems l = true) :
    dget kStream l = none := by
  induction l with
  | nil => rfl
  | cons p l ih =>
    obtain ⟨k, v⟩ := p
    simp only [noStream.noStreamItems, Bool.and_eq_true, decide_eq_true_eq] at h
    simp only [dget]
    rw [if_neg (show ¬ k = kStream from h.1.1), ih h.2]

mutual
theorem noStream_unchanged (flate : Bytes → Bytes) : (o : Obj) → noStream o = true →
    (parseObj flate o).2 = o
  | .pobj v, h => by
    simp only [noStream] at h
    simp only [parseObj, noStream_unchanged flate v h]
  | .ref _, _ => rfl
  | .bytes _, _ => rfl
  | .bool _, _ => rfl
  | .int _, _ => rfl
  | .flt _, _ => rfl
  | .str _, _ => rfl
  | .other, _ => rfl
  | .seq l, h => by
    simp only [noStream] at h
    have ih := noStreamList_unchanged flate l h
    simp only [parseObj, parseList]
    rw [listLoop_unchanged ih]
    simp only [parseElems_eq, List.map_map]
    exact congrArg Obj.seq (List.map_id'' (fun _ => rfl) l)
  | .dict items, h => by
    simp only [noStream] at h
    have ih := noStreamItems_unchanged flate items h
    simp only [parseObj, noStreamItems_dget h, parseDict]
    rw [dictLoop_unchanged ih]
    simp only [parseVals_eq, List.map_map]
    exact congrArg Obj.dict (List.map_id'' (fun _ => rfl) items)

theorem noStreamItems_unchanged (flate : Bytes → Bytes) : (l : List (Key × Obj)) →
    noStream.noStreamItems l = true → ∀ e ∈ parseVals flate l, e.after = e.val
  | [], _ => by simp [parseVals]
  | (k, v) :: l, h => by
    simp only [noStream.noStreamItems, Bool.and_eq_true] at h
    have h1 := noStream_unchanged flate v h.1.2
    have h2 := noStreamItems_unchanged flate l h.2
    intro e he
    simp only [parseVals, List.mem_cons] at he
    rcases he with rfl | he
    · exact h1
    · exact h2 e he

theorem noStreamList_unchanged (flate : Bytes → Bytes) : (l : List Obj) →
    noStream.noStreamList l = true → ∀ e ∈ parseElems flate l, e.after = e.val
  | [], _ => by simp [parseElems]
  | v :: l, h => by
    simp only [noStream.noStreamList, Bool.and_eq_true] at h
    have h1 := noStream_unchanged flate v h.1
    have h2 := noStreamList_unchanged flate l h.2
    intro e he
    simp only [parseElems, List.mem_cons] at he
    rcases he with rfl | he
    · exact h1
    · exact h2 e he
end

theorem dictLoop_keys {acc : Bytes} {es : List Entry} :
    (dictLoop acc es).2.map Prod.fst = es.map Entry.key := by
  induction es generalizing acc with
  | nil => simp [dictLoop]
  | cons e es ih =>
    unfold dictLoop
    split
    · simp
    · split <;> simp [ih]

theorem items_delKey_keys {es : List Entry} :
    ∀ p ∈ Entry.items (Entry.delKey kSkip (Entry.delKey kStream es)), p.1 ≠ kStream := by
  intro p hp
  simp only [Entry.items, Entry.delKey, List.mem_map, List.mem_filter, decide_eq_true_eq] at hp
  obtain ⟨e, ⟨⟨_, h⟩, _⟩, rfl⟩ := hp
  exact h

theorem stream_lost (flate : Bytes → Bytes) (items : List (Key × Obj)) (e : PyErr)
    (hs : (dget (.str c!"__stream__") items).isSome)
    (h : (parseObj flate (.dict items)).1 = .error e) :
    ∃ after, (parseObj flate (.dict items)).2 = .dict after ∧
      dget (.str c!"__stream__") after = none := by
  change (dget kStream items).isSome at hs
  obtain ⟨s, hs⟩ := Option.isSome_iff_exists.1 hs
  simp only [parseObj, hs] at h ⊢
  refine ⟨_, rfl, ?_⟩
  change dget kStream _ = none
  unfold parseStream at h ⊢
  simp only at h ⊢
  split
  · exact dget_none items_delKey_keys
  · rename_i raw hraw
    split
    · exact dget_none items_delKey_keys
    · rename_i stream henc
      have hk : ∀ p ∈ (dictLoop b!"<<" (streamEntries stream (parseVals flate items))).2,
          p.1 ≠ kStream := by
        intro p hp
        have : p.1 ∈ (dictLoop b!"<<" (streamEntries stream (parseVals flate items))).2.map Prod.fst :=
          List.mem_map_of_mem hp
        rw [dictLoop_keys, List.mem_map] at this
        obtain ⟨e', he', hk⟩ := this
        rw [← hk]
        exact (streamEntries_key he').1
      simp only [hraw, henc] at h
      split
      · exact dget_none hk
      · exact dget_none hk
      · rename_i d hd
        rw [hd] at h
        simp at h

theorem delKey_parseVals (flate : Bytes → Bytes) (k : Key) (l : List (Key × Obj)) :
    Entry.delKey k (parseVals flate l) = parseVals flate (ddel k l) := by
  simp [Entry.delKey, ddel, parseVals_eq, List.filter_map, Function.comp_def]

theorem setKey_parseVals (flate : Bytes → Bytes) (stream : Bytes) (l : List (Key × Obj)) :
    Entry.setKey (lengthEntry stream) (parseVals flate l)
      = parseVals flate (dset kLength (.int stream.length) l) := by
  induction l with
  | nil => simp [parseVals, Entry.setKey, dset, lengthEntry, parseObj, intStr]
  | cons p l ih =>
    obtain ⟨k, v⟩ := p
    simp only [parseVals, Entry.setKey, dset]
    split
    · rename_i h
      have h' : k = kLength := h
      simp [h', parseVals, lengthEntry, parseObj, intStr]
    · rename_i h
      have h' : ¬ k = kLength := h
      simp [h', parseVals, ih]

theorem dget_ddel_self {α} (k : Key) (l : List (Key × α)) : dget k (ddel k l) = none := by
  apply dget_none
  intro p hp
  simp only [ddel, List.mem_filter, decide_eq_true_eq] at hp
  exact hp.2

theorem dget_ddel_ne {α} {k k' : Key} (h : k' ≠ k) (l : List (Key × α)) :
    dget k (ddel k' l) = dget k l := by
  induction l with
  | nil => rfl
  | cons p l ih =>
    obtain ⟨k1, v⟩ := p
    simp only [ddel, List.filter_cons] at ih ⊢
    by_cases h1 : k1 = k'
    · subst h1
      simp only [ne_eq, not_true_eq_false, decide_false, Bool.false_eq_true, if_false]
      rw [ih]
      simp [dget, h]
    · simp only [ne_eq, h1, not_false_eq_true, decide_true, if_true, dget]
      rw [ih]

theorem dget_map_after (flate : Bytes → Bytes) (k : Key) (l : List (Key × Obj)) :
    dget k ((parseVals flate l).map fun e => (e.key, e.after))
      = (dget k l).map fun v => (parseObj flate v).2 := by
  induction l with
  | nil => rfl
  | cons p l ih =>
    obtain ⟨k1, v⟩ := p
    simp only [parseVals, List.map_cons, dget]
    split <;> simp [ih]

/-- the data a stream value stands for -/
def streamDataL : Obj → Option Bytes
  | .bytes b => some b
  | .dict d => d.foldr (fun p acc => match p.2, acc with
      | .bytes b, some r => some (b ++ r)
      | _, _ => none) (some [])
  | _ => none

theorem joinValues_spec (d : List (Key × Obj)) (raw : Bytes) (h : joinValues d = .ok raw) :
    d.foldr (fun p acc => match p.2, acc with
      | .bytes b, some r => some (b ++ r)
      | _, _ => none) (some []) = some raw := by
  induction d generalizing raw with
  | nil => simpa [joinValues] using h
  | cons p d ih =>
    obtain ⟨k, v⟩ := p
    unfold joinValues at h
    split at h
    · rename_i heq; simp at heq
    · rename_i b l heq
      simp only [List.cons.injEq, Prod.mk.injEq] at heq
      obtain ⟨⟨_, hv⟩, hl⟩ := heq
      subst hv; subst hl
      split at h
      · rename_i r hr
        simp only [Except.ok.injEq] at h
        subst h
        simp [ih r hr]
      · simp at h
    · simp at h

theorem streamStr_spec (s : Obj) (raw : Bytes) (h : streamStr s = .ok raw) :
    streamDataL s = some raw := by
  cases s with
  | bytes b => simpa [streamStr, streamDataL] using h
  | dict d => exact joinValues_spec d raw h
  | _ => simp [streamStr] at h

/-- the dict `parse_stream` passes to `parse_dict` -/
def plainOf (n : Nat) (items : List (Key × Obj)) : List (Key × Obj) :=
  dset kLength (.int n) (ddel kSkip (ddel kStream items))

theorem streamEntries_parseVals (flate : Bytes → Bytes) (stream : Bytes) (items : List (Key × Obj)) :
    streamEntries stream (parseVals flate items) = parseVals flate (plainOf stream.length items) := by
  rw [streamEntries, delKey_parseVals, delKey_parseVals, setKey_parseVals]
  rfl

theorem dget_plainOf_ne {n : Nat} {items : List (Key × Obj)} {k : Key} (h1 : k ≠ kLength)
    (h2 : k ≠ kStream) (h3 : k ≠ kSkip) : dget k (plainOf n items) = dget k items := by
  rw [plainOf, dget_dset_ne (Ne.symm h1), dget_ddel_ne (Ne.symm h3), dget_ddel_ne (Ne.symm h2)]

theorem skipFlag_spec (flate : Bytes → Bytes) (items : List (Key × Obj)) :
    skipFlag (Entry.delKey kStream (parseVals flate items)) = true ↔
      (dget kSkip items).map truthy = some true := by
  rw [skipFlag, delKey_parseVals, find_parseVals, dget_ddel_ne (by simp [kStream, kSkip])]
  cases dget kSkip items <;> simp

theorem stream_ok (flate : Bytes → Bytes) (items : List (Key × Obj)) (s : Obj) (b : Bytes)
    (hs : dget kStream items = some s)
    (h : (parseObj flate (.dict items)).1 = .ok (some b)) :
    ∃ (raw data head : Bytes) (plain after : List (Key × Obj)),
      streamDataL s = some raw ∧
      b = head ++ b!"stream\n" ++ data ++ b!"\nendstream" ∧
      (data = if (dget kFilter items).isSome ∧
          ¬ ((dget kSkip items).map truthy = some true) then flate raw else raw) ∧
      (parseObj flate (.dict plain)).1 = .ok (some head) ∧
      dget kLength plain = some (.int data.length) ∧
      dget kStream plain = none ∧ dget kSkip plain = none ∧
      (∀ k, k ≠ kLength → k ≠ kStream → k ≠ kSkip → dget k plain = dget k items) ∧
      (parseObj flate (.dict items)).2 = .dict after ∧
      dget kStream after = some s ∧
      ((dget kSkip after).map truthy = some true ↔ (dget kSkip items).map truthy = some true) ∧
      (∀ k, k ≠ kLength → k ≠ kStream → k ≠ kSkip →
        dget k after = (dget k items).map fun v => (parseObj flate v).2) := by
  simp only [parseObj, hs] at h ⊢
  obtain ⟨raw, data, head, h1, h2, h3, h4, h5⟩ := parseStream_ok h
  rw [streamEntries_parseVals] at h3 h5
  have hsk := skipFlag_spec flate items
  have hst0 : dget kStream (plainOf data.length items) = none := by
    rw [plainOf, dget_dset_ne (by simp [kLength, kStream]), dget_ddel_ne (by simp [kSkip, kStream]),
      dget_ddel_self]
  have hsk0 : dget kSkip (plainOf data.length items) = none := by
    rw [plainOf, dget_dset_ne (by simp [kLength, kSkip]), dget_ddel_self]
  refine ⟨raw, data, head, plainOf data.length items, _, streamStr_spec s raw h1, h4, ?_, ?_,
    dget_dset_self _ _ _, hst0, hsk0, fun k => dget_plainOf_ne, rfl, ?_, ?_, ?_⟩
  · rw [delKey_parseVals, delKey_parseVals, find_parseVals, dget_ddel_ne (by simp [kSkip, kFilter]),
      dget_ddel_ne (by simp [kStream, kFilter]), ← delKey_parseVals] at h2
    cases hf : dget kFilter items with
    | none => simpa [encodeMaybe, hf] using h2.symm
    | some f =>
      rw [hf] at h2
      simp only [encodeMaybe] at h2
      cases hb : skipFlag (Entry.delKey kStream (parseVals flate items)) with
      | true =>
        rw [hb] at h2
        rw [if_neg (by simp [hsk.1 hb])]
        simpa using h2.symm
      | false =>
        rw [hb] at h2
        have hns : ¬ ((dget kSkip items).map truthy = some true) := by
          rw [← hsk, hb]; simp
        rw [if_pos ⟨by simp, hns⟩]
        simp only [Bool.not_false, if_true] at h2
        cases f with
        | bytes fb =>
          simp only [encodeStream] at h2
          split at h2
          · simpa using h2.symm
          · split at h2 <;> simp at h2
        | _ => simp [encodeStream] at h2
  · simpa [parseObj, hst0, parseDict] using h3
  · rw [h5, List.append_assoc, dget_append, dget_map_after, hst0]
    simp [dget]
  · rw [h5, dget_append, dget_append, dget_map_after, hsk0, ← hsk]
    cases skipFlag (Entry.delKey kStream (parseVals flate items)) <;>
      simp [dget, kSkip, kStream, truthy]
  · intro k k1 k2 k3
    rw [h5, dget_append, dget_append, dget_map_after, dget_plainOf_ne k1 k2 k3]
    cases dget k items with
    | some v => simp
    | none =>
      cases skipFlag (Entry.delKey kStream (parseVals flate items)) <;>
        simp [dget, Ne.symm k2, Ne.symm k3]

theorem meaningItems_length {n : Nat} : (l : List (Key × Obj)) → (ps : List (Bytes × PObj)) →
    meaningItems l = some ps →
    ∃ d, meaningItems (dset kLength (.int n) l) = some d ∧
      d.find? (fun p => p.1 = b!"Length") = some (b!"Length", .int n)
  | [], ps, h => ⟨[(b!"Length", .int n)], rfl, rfl⟩
  | (.int i, v) :: l, ps, h => by simp [meaningItems] at h
  | (.str k, v) :: l, ps, h => by
    simp only [meaningItems] at h
    split at h
    · rename_i hk
      split at h
      · rename_i p ps' hp hps
        simp only [dset]
        split
        · rename_i hkl
          simp only [kLength, Key.str.injEq] at hkl
          subst hkl
          refine ⟨(b!"Length", .int n) :: ps', ?_, by simp⟩
          have hl : latinBytes c!"Length" = b!"Length" := by decide
          simp only [kLength, meaningItems, hk, if_true, meaning, hps, hl]
        · rename_i hkl
          obtain ⟨d, hd, hf⟩ := meaningItems_length (n := n) l ps' hps
          refine ⟨(latinBytes k, p) :: d, ?_, ?_⟩
          · simp only [meaningItems, hk, if_true, hp, hd]
          · rw [List.find?_cons_of_neg, hf]
            simp only [decide_eq_true_eq]
            intro heq
            apply hkl
            have hlat := (nameChars_spec hk).1
            have : latinBytes k = latinBytes c!"Length" := heq
            have hinj : ∀ (a b : Str), a.all isLatin = true → b.all isLatin = true →
                a.map latin1 = b.map latin1 → a = b := by
              intro a
              induction a with
              | nil => intro b _ _ h; cases b <;> simp_all
              | cons x a ih =>
                intro b ha hb h
                cases b with
                | nil => simp at h
                | cons y b =>
                  simp only [List.all_cons, Bool.and_eq_true, List.map_cons, List.cons.injEq] at ha hb h
                  rw [latin1_inj ha.1 hb.1 h.1, ih b ha.2 hb.2 h.2]
            rw [hinj k c!"Length" hlat (by decide) this]
            rfl
      · simp at h
    · simp at h

theorem stream_read (flate : Bytes → Bytes) (items : List (Key × Obj)) (s : Obj) (b : Bytes)
    (ps : List (Bytes × PObj))
    (hs : dget kStream items = some s)
    (hm : meaningItems (items.filter fun p => p.1 ≠ kStream ∧ p.1 ≠ kSkip) = some ps)
    (h : (parseObj flate (.dict items)).1 = .ok (some b)) :
    ∃ (data head : Bytes) (d : List (Bytes × PObj)),
      b = head ++ b!"stream\n" ++ data ++ b!"\nendstream" ∧ readObj head = some (.dict d) ∧
      d.find? (fun p => p.1 = b!"Length") = some (b!"Length", .int data.length) := by
  simp only [parseObj, hs] at h
  obtain ⟨raw, data, head, h1, h2, h3, h4, h5⟩ := parseStream_ok h
  rw [streamEntries_parseVals] at h3
  have hdd : ddel kSkip (ddel kStream items) = items.filter fun p => p.1 ≠ kStream ∧ p.1 ≠ kSkip := by
    simp only [ddel, List.filter_filter]
    congr 1
    funext p
    simp [Bool.and_comm]
  obtain ⟨d, hd, hf⟩ := meaningItems_length (n := data.length) _ ps hm
  have hst0 : dget kStream (plainOf data.length items) = none := by
    rw [plainOf, dget_dset_ne (by simp [kLength, kStream]), dget_ddel_ne (by simp [kSkip, kStream]),
      dget_ddel_self]
  rw [← hdd] at hd
  obtain ⟨c, cs, t, hr, hl, hrd⟩ := objOk_dict hst0 (items_ok flate _ d hd)
  have hhead : head = c :: cs := by
    simp only [parseObj, hst0, parseDict] at hr
    rw [hr] at h3
    simpa using h3.symm
  refine ⟨data, head, d, h4, ?_, hf⟩
  rw [hhead, readObj, hl.lex, hrd []]

theorem dset_of_dget {α} {k : Key} {v : α} {l : List (Key × α)} (h : dget k l = some v) :
    dset k v l = l := by
  induction l with
  | nil => simp [dget] at h
  | cons p l ih =>
    obtain ⟨k', v'⟩ := p
    unfold dset
    unfold dget at h
    split
    · rename_i hk
      rw [if_pos hk] at h
      simp only [Option.some.injEq] at h
      simp only at hk
      rw [h, hk]
    · rename_i hk
      rw [if_neg hk] at h
      rw [ih h]

/-- looking up an ordinary key in what a successful serialisation left behind -/
theorem dget_after (flate : Bytes → Bytes) (items after : List (Key × Obj)) (b : Bytes)
    (h : parseObj flate (.dict items) = (.ok (some b), .dict after)) (k : Key)
    (h1 : k ≠ kLength) (h2 : k ≠ kStream) (h3 : k ≠ kSkip) :
    dget k after = (dget k items).map fun v => (parseObj flate v).2 := by
  have hb : (parseObj flate (.dict items)).1 = .ok (some b) := by rw [h]
  have ha : (parseObj flate (.dict items)).2 = .dict after := by rw [h]
  cases hs : dget kStream items with
  | some s =>
    obtain ⟨_, _, _, _, after', _, _, _, _, _, _, _, _, h8, _, _, h9⟩ :=
      stream_ok flate items s b hs hb
    rw [ha] at h8
    simp only [Obj.dict.injEq] at h8
    subst h8
    exact h9 k h1 h2 h3
  | none =>
    simp only [parseObj, hs, parseDict] at hb ha
    rw [dictLoop_good (dictLoop_ok hb)] at ha
    simp only [Obj.dict.injEq] at ha
    rw [← ha, dget_map_after]

theorem output_again (flate : Bytes → Bytes) (s : Base) (u1 u2 v1 v2 : Bytes)
    (h : (s.output flate u1 u2).err = none) :
    ((s.output flate u1 u2).base.output flate v1 v2).err = none ∧
    ((s.output flate u1 u2).base.output flate v1 v2).written = (s.output flate u1 u2).written ∧
    ((s.output flate u1 u2).base.output flate v1 v2).base = (s.output flate u1 u2).base := by
  obtain ⟨hver, hloop, t, t3, htr, hw, hb⟩ := output_ok h
  obtain ⟨_, _, _, _, hbodies⟩ := outputLoop_ok hloop
  generalize hs' : (s.output flate u1 u2).base = s'
  rw [hs'] at hb
  have hidem : ∀ o ∈ s.content, ∃ b, parseObj flate (parseObj flate o.value).2
      = (.ok (some b), (parseObj flate o.value).2) ∧ (parseObj flate o.value).1 = .ok (some b) := by
    intro o ho
    obtain ⟨b, hb⟩ := hbodies o ho
    exact ⟨b, parseObj_idem flate o.value b hb, hb⟩
  -- the trailer of the second call
  have htr2 : parseObj flate (.dict t3) = (.ok (some t), .dict t3) := by
    have := parseObj_idem flate (.dict (trailerOf u1 u2 s)) t (by rw [htr])
    rw [htr] at this
    exact this
  have hsize : dget kSize (trailerOf u1 u2 s) = some (.int s.count) := by
    unfold trailerOf
    split
    · exact dget_dset_self _ _ _
    · rw [dget_dset_ne (by simp [kID, kSize]), dget_dset_self]
  have hid : ∃ i, dget kID (trailerOf u1 u2 s) = some i := by
    unfold trailerOf
    split
    · rename_i i hi; exact ⟨i, hi⟩
    · exact ⟨_, dget_dset_self _ _ _⟩
  obtain ⟨i, hid⟩ := hid
  have hsize3 : dget kSize t3 = some (.int s.count) := by
    rw [dget_after flate _ t3 t htr kSize (by simp [kSize, kLength]) (by simp [kSize, kStream])
      (by simp [kSize, kSkip]), hsize]
    rfl
  have hid3 : ∃ i, dget kID t3 = some i := by
    rw [dget_after flate _ t3 t htr kID (by simp [kID, kLength]) (by simp [kID, kStream])
      (by simp [kID, kSkip]), hid]
    exact ⟨_, rfl⟩
  obtain ⟨i3, hid3⟩ := hid3
  have htrailer : trailerOf v1 v2 s' = t3 := by
    subst hb
    simp only [trailerOf]
    rw [dset_of_dget hsize3, hid3]
  have herr : (s'.output flate v1 v2).err = none := by
    apply output_intro (t := t)
    · subst hb; exact hver
    · subst hb
      intro o ho
      simp only [List.mem_map] at ho
      obtain ⟨o', ho', rfl⟩ := ho
      obtain ⟨b, h1, _⟩ := hidem o' ho'
      exact ⟨b, by rw [h1]⟩
    · rw [htrailer, htr2]
  refine ⟨herr, ?_, ?_⟩
  all_goals
    obtain ⟨_, _, t', t3', htr', hw', hb'⟩ := output_ok herr
    rw [htrailer, htr2] at htr'
    simp only [Prod.mk.injEq, Except.ok.injEq, Option.some.injEq, Obj.dict.injEq] at htr'
    obtain ⟨rfl, rfl⟩ := htr'
  · rw [hw', hw]
    have hhead : headerOf s' = headerOf s := by subst hb; rfl
    have hobj : ∀ i (l : List PDFObj), (∀ o ∈ l, ∃ b, parseObj flate (parseObj flate o.value).2
      = (.ok (some b), (parseObj flate o.value).2) ∧ (parseObj flate o.value).1 = .ok (some b)) →
        ∀ c, allBytes flate i (l.map fun o => ⟨o.id, (parseObj flate o.value).2⟩) = allBytes flate i l ∧
        allXref flate i c (l.map fun o => ⟨o.id, (parseObj flate o.value).2⟩) = allXref flate i c l := by
      intro i l hl
      induction l generalizing i with
      | nil => simp [allBytes, allXref]
      | cons o l ih =>
        intro c
        obtain ⟨b, h1, h2⟩ := hl o (by simp)
        have ho : objBytes flate i ⟨o.id, (parseObj flate o.value).2⟩ = objBytes flate i o := by
          simp [objBytes, h1, h2]
        have ih' := fun i => ih i fun o ho => hl o (by simp [ho])
        simp only [List.map_cons, allBytes, allXref, ho]
        exact ⟨by rw [(ih' _ 0).1], by rw [(ih' _ _).2]⟩
    have hcontent : s'.content = s.content.map fun o => ⟨o.id, (parseObj flate o.value).2⟩ := by
      subst hb; rfl
    have hcount : s'.count = s.count := by subst hb; rfl
    rw [hhead, hcontent, hcount, (hobj 0 s.content hidem 0).1, (hobj 0 s.content hidem _).2]
  · rw [hb']
    subst hb
    simp only [List.map_map]
    congr 1
    apply List.map_congr_left
    intro o ho
    obtain ⟨b, h1, _⟩ := hidem o ho
    simp [h1]

end Verif
