import Verif.Model.Base
/-! Lemmas about `parse_obj` and its mutation of the object. -/
namespace Verif

/-- the item was serialised by the loop of `parse_dict` -/
def Entry.Good (e : Entry) : Prop :=
  ∃ kb c cs, encodeKey e.key = .ok kb ∧ e.ret = .ok (some (c :: cs))

theorem dictLoop_cons_good {acc : Bytes} {e : Entry} {es : List Entry} {kb : Bytes} {c cs}
    (hk : encodeKey e.key = .ok kb) (hr : e.ret = .ok (some (c :: cs))) :
    dictLoop acc (e :: es) =
      ((dictLoop (acc ++ kb ++ b!" " ++ (c :: cs)) es).1,
        (e.key, e.after) :: (dictLoop (acc ++ kb ++ b!" " ++ (c :: cs)) es).2) := by
  simp [dictLoop, hk, hr, firstIn]

theorem dictLoop_ok {acc : Bytes} {es : List Entry} {b : Bytes}
    (h : (dictLoop acc es).1 = .ok (some b)) : ∀ e ∈ es, e.Good := by
  induction es generalizing acc with
  | nil => simp
  | cons e es ih =>
    unfold dictLoop at h
    split at h
    · simp at h
    · rename_i kb hk
      split at h <;> try (simp at h; done)
      rename_i c cs hr
      intro e' he'
      rcases List.mem_cons.1 he' with rfl | he'
      · exact ⟨kb, c, cs, hk, hr⟩
      · exact ih h e' he'

theorem dictLoop_ne_none {acc : Bytes} {es : List Entry} : (dictLoop acc es).1 ≠ .ok none := by
  induction es generalizing acc with
  | nil => simp [dictLoop]
  | cons e es ih =>
    unfold dictLoop
    split
    · simp
    · split <;> simp [ih]

theorem dictLoop_good {acc : Bytes} {es : List Entry} (h : ∀ e ∈ es, e.Good) :
    (dictLoop acc es).2 = es.map (fun e => (e.key, e.after)) := by
  induction es generalizing acc with
  | nil => simp [dictLoop]
  | cons e es ih =>
    obtain ⟨kb, c, cs, hk, hr⟩ := h e (by simp)
    rw [dictLoop_cons_good hk hr]
    simp [ih fun e he => h e (by simp [he])]

/-- `parse_dict` only looks at keys and at what `parse_obj` returned. -/
theorem dictLoop_congr {acc : Bytes} {es es' : List Entry}
    (h : es.map (fun e => (e.key, e.ret)) = es'.map (fun e => (e.key, e.ret))) :
    (dictLoop acc es).1 = (dictLoop acc es').1 := by
  induction es generalizing acc es' with
  | nil =>
    cases es' with
    | nil => rfl
    | cons e' es' => simp at h
  | cons e es ih =>
    cases es' with
    | nil => simp at h
    | cons e' es' =>
      simp only [List.map_cons, List.cons.injEq, Prod.mk.injEq] at h
      obtain ⟨⟨hk, hr⟩, h⟩ := h
      unfold dictLoop
      rw [hk, hr]
      split
      · rfl
      · split <;> simp [ih h]

theorem listLoop_ok {acc : Bytes} {i : Nat} {es : List Elem} {b : Bytes}
    (h : (listLoop acc i es).1 = .ok (some b)) :
    ∀ e ∈ es, ∃ c cs, e.ret = .ok (some (c :: cs)) := by
  induction es generalizing acc i with
  | nil => simp
  | cons e es ih =>
    unfold listLoop at h
    split at h <;> try (simp at h; done)
    rename_i c cs hr
    intro e' he'
    rcases List.mem_cons.1 he' with rfl | he'
    · exact ⟨c, cs, hr⟩
    · exact ih h e' he'

theorem listLoop_good {acc : Bytes} {i : Nat} {es : List Elem}
    (h : ∀ e ∈ es, ∃ c cs, e.ret = .ok (some (c :: cs))) :
    (listLoop acc i es).2 = es.map (fun e => e.after) := by
  induction es generalizing acc i with
  | nil => simp [listLoop]
  | cons e es ih =>
    obtain ⟨c, cs, hr⟩ := h e (by simp)
    simp only [listLoop, hr]
    simp [ih fun e he => h e (by simp [he])]

theorem listLoop_congr {acc : Bytes} {i : Nat} {es es' : List Elem}
    (h : es.map (fun e => e.ret) = es'.map (fun e => e.ret)) :
    (listLoop acc i es).1 = (listLoop acc i es').1 := by
  induction es generalizing acc i es' with
  | nil =>
    cases es' with
    | nil => rfl
    | cons e' es' => simp at h
  | cons e es ih =>
    cases es' with
    | nil => simp at h
    | cons e' es' =>
      simp only [List.map_cons, List.cons.injEq] at h
      obtain ⟨hr, h⟩ := h
      unfold listLoop
      rw [hr]
      split <;> simp [ih h]

theorem listLoop_ne_none {acc : Bytes} {i : Nat} {es : List Elem} :
    (listLoop acc i es).1 ≠ .ok none := by
  induction es generalizing acc i with
  | nil => simp [listLoop]
  | cons e es ih =>
    unfold listLoop
    split <;> simp [ih]

theorem parseVals_eq (flate : Bytes → Bytes) (l : List (Key × Obj)) :
    parseVals flate l = l.map fun p => ⟨p.1, p.2, (parseObj flate p.2).1, (parseObj flate p.2).2⟩ := by
  induction l with
  | nil => simp [parseVals]
  | cons p l ih => obtain ⟨k, v⟩ := p; simp [parseVals, ih]

theorem parseElems_eq (flate : Bytes → Bytes) (l : List Obj) :
    parseElems flate l = l.map fun p => ⟨p, (parseObj flate p).1, (parseObj flate p).2⟩ := by
  induction l with
  | nil => simp [parseElems]
  | cons p l ih => simp [parseElems, ih]

theorem parseVals_append (flate : Bytes → Bytes) (l l' : List (Key × Obj)) :
    parseVals flate (l ++ l') = parseVals flate l ++ parseVals flate l' := by
  simp [parseVals_eq]

/-- the entries `parse_stream` passes to `parse_dict` -/
def streamEntries (stream : Bytes) (es : List Entry) : List Entry :=
  Entry.setKey (lengthEntry stream) (Entry.delKey kSkip (Entry.delKey kStream es))

theorem parseStream_ok {flate : Bytes → Bytes} {es : List Entry} {s : Obj} {b : Bytes}
    (h : (parseStream flate es s).1 = .ok (some b)) :
    ∃ raw stream d,
      streamStr s = .ok raw ∧
      encodeMaybe flate (skipFlag (Entry.delKey kStream es))
        (Entry.find kFilter (Entry.delKey kSkip (Entry.delKey kStream es))) raw = .ok stream ∧
      (dictLoop b!"<<" (streamEntries stream es)).1 = .ok (some d) ∧
      b = d ++ b!"stream\n" ++ stream ++ b!"\nendstream" ∧
      (parseStream flate es s).2 = (streamEntries stream es).map (fun e => (e.key, e.after)) ++
        [(kStream, s)] ++
        (if skipFlag (Entry.delKey kStream es) then [(kSkip, .bool true)] else []) := by
  unfold parseStream at h
  simp only at h
  split at h
  · simp at h
  · rename_i raw hraw
    split at h
    · simp at h
    · rename_i stream henc
      split at h
      · simp at h
      · simp at h
      · rename_i d hd
        refine ⟨raw, stream, d, hraw, henc, hd, ?_, ?_⟩
        · simpa using h.symm
        · have hd' : (dictLoop b!"<<" (streamEntries stream es)).1 = .ok (some d) := hd
          unfold parseStream
          simp only [hraw, henc]
          rw [hd]
          simp only [parseDict]
          rw [← dictLoop_good (acc := b!"<<") (dictLoop_ok hd')]
          rfl

theorem parseStream_intro {flate : Bytes → Bytes} {es : List Entry} {s : Obj} {raw stream d : Bytes}
    (h1 : streamStr s = .ok raw)
    (h2 : encodeMaybe flate (skipFlag (Entry.delKey kStream es))
        (Entry.find kFilter (Entry.delKey kSkip (Entry.delKey kStream es))) raw = .ok stream)
    (h3 : (dictLoop b!"<<" (streamEntries stream es)).1 = .ok (some d)) :
    parseStream flate es s =
      (.ok (some (d ++ b!"stream\n" ++ stream ++ b!"\nendstream")),
        (streamEntries stream es).map (fun e => (e.key, e.after)) ++
        [(kStream, s)] ++
        (if skipFlag (Entry.delKey kStream es) then [(kSkip, .bool true)] else [])) := by
  have h3' : (parseDict (Entry.setKey (lengthEntry stream)
      (Entry.delKey kSkip (Entry.delKey kStream es)))).1 = .ok (some d) := h3
  unfold parseStream
  simp only [h1, h2, h3']
  simp only [parseDict]
  rw [← dictLoop_good (acc := b!"<<") (dictLoop_ok h3)]
  rfl

theorem mem_setKey {n e : Entry} {es : List Entry} (h : e ∈ Entry.setKey n es) : e = n ∨ e ∈ es := by
  induction es with
  | nil => simp [Entry.setKey] at h; exact .inl h
  | cons x xs ih =>
    unfold Entry.setKey at h
    split at h
    · rcases List.mem_cons.1 h with rfl | h
      · exact .inl rfl
      · exact .inr (by simp [h])
    · rcases List.mem_cons.1 h with rfl | h
      · exact .inr (by simp)
      · rcases ih h with h | h
        · exact .inl h
        · exact .inr (by simp [h])

theorem delKey_of_not {k : Key} {es : List Entry} (h : ∀ e ∈ es, e.key ≠ k) :
    Entry.delKey k es = es := by
  unfold Entry.delKey
  rw [List.filter_eq_self]
  intro e he
  simpa using h e he

theorem delKey_append (k : Key) (a b : List Entry) :
    Entry.delKey k (a ++ b) = Entry.delKey k a ++ Entry.delKey k b := by
  simp [Entry.delKey]

theorem find_append (k : Key) (a b : List Entry) :
    Entry.find k (a ++ b) = (Entry.find k a).or (Entry.find k b) := by
  induction a with
  | nil => simp [Entry.find]
  | cons e a ih =>
    simp only [List.cons_append, Entry.find]
    split <;> simp [*]

theorem find_none {k : Key} {es : List Entry} (h : ∀ e ∈ es, e.key ≠ k) : Entry.find k es = none := by
  induction es with
  | nil => rfl
  | cons e es ih =>
    simp only [Entry.find]
    rw [if_neg (h e (by simp)), ih fun e he => h e (by simp [he])]

theorem find_setKey_ne {k : Key} {n : Entry} {es : List Entry} (h : n.key ≠ k) :
    Entry.find k (Entry.setKey n es) = Entry.find k es := by
  induction es with
  | nil => simp [Entry.setKey, Entry.find, h]
  | cons e es ih =>
    unfold Entry.setKey
    split
    · rename_i he
      simp [Entry.find, h, he]
    · simp [Entry.find, ih]

/-- keys of the entries `parse_stream` serialises -/
theorem streamEntries_key {stream : Bytes} {es : List Entry} {e : Entry}
    (h : e ∈ streamEntries stream es) : e.key ≠ kStream ∧ e.key ≠ kSkip := by
  rcases mem_setKey h with rfl | h
  · simp [lengthEntry, kLength, kStream, kSkip]
  · simp only [Entry.delKey, List.mem_filter, decide_eq_true_eq] at h
    exact ⟨h.1.2, h.2⟩

theorem setKey_map {n : Entry} {f : Entry → Entry} (hk : ∀ e, (f e).key = e.key) (hn : f n = n)
    (es : List Entry) : Entry.setKey n ((Entry.setKey n es).map f) = (Entry.setKey n es).map f := by
  induction es with
  | nil => simp [Entry.setKey, hn]
  | cons e es ih =>
    by_cases he : e.key = n.key
    · simp [hn, Entry.setKey, he]
    · simp [Entry.setKey, hk, he, ih]

theorem find_map {f : Entry → Entry} (hk : ∀ e, (f e).key = e.key) (k : Key) (es : List Entry) :
    Entry.find k (es.map f) = ((es.find? (fun e => e.key = k)).map fun e => (f e).val) := by
  induction es with
  | nil => simp [Entry.find]
  | cons e es ih =>
    simp only [List.map_cons, Entry.find, hk, List.find?_cons]
    by_cases he : e.key = k <;> simp [he, ih]

theorem find_eq_find? (k : Key) (es : List Entry) :
    Entry.find k es = (es.find? (fun e => e.key = k)).map Entry.val := by
  induction es with
  | nil => simp [Entry.find]
  | cons e es ih =>
    simp only [Entry.find, List.find?_cons]
    by_cases he : e.key = k <;> simp [he, ih]

/-- the entry of the value left behind by `parse_obj` -/
def Entry.again (flate : Bytes → Bytes) (e : Entry) : Entry :=
  ⟨e.key, e.after, (parseObj flate e.after).1, (parseObj flate e.after).2⟩

theorem again_key (flate : Bytes → Bytes) (e : Entry) : (Entry.again flate e).key = e.key := rfl

theorem parseVals_map_after (flate : Bytes → Bytes) (es : List Entry) :
    parseVals flate (es.map fun e => (e.key, e.after)) = es.map (Entry.again flate) := by
  simp [parseVals_eq, Entry.again]

theorem dget_append {α} (k : Key) (a b : List (Key × α)) :
    dget k (a ++ b) = (dget k a).or (dget k b) := by
  induction a with
  | nil => simp [dget]
  | cons e a ih =>
    obtain ⟨k', v⟩ := e
    simp only [List.cons_append, dget]
    split <;> simp [*]

theorem dget_none {α} {k : Key} {l : List (Key × α)} (h : ∀ p ∈ l, p.1 ≠ k) : dget k l = none := by
  induction l with
  | nil => rfl
  | cons e l ih =>
    obtain ⟨k', v⟩ := e
    simp only [dget]
    rw [if_neg (h (k', v) (by simp)), ih fun p hp => h p (by simp [hp])]

theorem find_parseVals (flate : Bytes → Bytes) (k : Key) (l : List (Key × Obj)) :
    Entry.find k (parseVals flate l) = dget k l := by
  induction l with
  | nil => rfl
  | cons e l ih => obtain ⟨k', v⟩ := e; simp [parseVals, Entry.find, dget, ih]

theorem parseStream_idem {flate : Bytes → Bytes} {es : List Entry} {s : Obj} {b : Bytes}
    (ih : ∀ e ∈ es, ∀ b, e.ret = .ok (some b) →
      parseObj flate e.after = (.ok (some b), e.after))
    (hsc : ∀ e ∈ es, ∀ f, e.val = .bytes f → e.after = .bytes f)
    (h : (parseStream flate es s).1 = .ok (some b)) :
    dget kStream (parseStream flate es s).2 = some s ∧
    parseStream flate (parseVals flate (parseStream flate es s).2) s
      = (.ok (some b), (parseStream flate es s).2) := by
  obtain ⟨raw, stream, d, h1, h2, h3, h4, h5⟩ := parseStream_ok h
  rw [h5]
  have hlen : Entry.again flate (lengthEntry stream) = lengthEntry stream := by
    simp [Entry.again, lengthEntry, parseObj, intStr]
  have ih' : ∀ e ∈ streamEntries stream es, (Entry.again flate e).ret = e.ret ∧
      (Entry.again flate e).after = e.after := by
    intro e he
    obtain ⟨kb, c, cs, _, hr⟩ := dictLoop_ok h3 e he
    rcases mem_setKey he with rfl | he
    · rw [hlen]; simp
    · have : e ∈ es := by
        simp only [Entry.delKey, List.mem_filter] at he
        exact he.1.1
      simp [Entry.again, ih e this _ hr, hr]
  constructor
  · rw [List.append_assoc, dget_append, dget_none (by
      intro p hp
      simp only [List.mem_map] at hp
      obtain ⟨e, he, rfl⟩ := hp
      exact (streamEntries_key he).1)]
    simp [dget]
  · -- the entries of the second call
    have hkeys : ∀ e ∈ (streamEntries stream es).map (Entry.again flate),
        e.key ≠ kStream ∧ e.key ≠ kSkip := by
      intro e he
      simp only [List.mem_map] at he
      obtain ⟨e, he, rfl⟩ := he
      rw [again_key]
      exact streamEntries_key he
    generalize hsk : skipFlag (Entry.delKey kStream es) = skip at *
    have hpv : parseVals flate (List.map (fun e => (e.key, e.after)) (streamEntries stream es) ++
          [(kStream, s)] ++ if skip = true then [(kSkip, Obj.bool true)] else [])
        = (streamEntries stream es).map (Entry.again flate) ++
          ([⟨kStream, s, (parseObj flate s).1, (parseObj flate s).2⟩] ++
          if skip then [⟨kSkip, .bool true, .ok (some b!"true"), .bool true⟩] else []) := by
      rw [parseVals_append, parseVals_append, parseVals_map_after, List.append_assoc]
      congr 2
      cases skip <;> simp [parseVals, parseObj]
    rw [hpv]
    have hdel : Entry.delKey kStream ((streamEntries stream es).map (Entry.again flate) ++
          ([⟨kStream, s, (parseObj flate s).1, (parseObj flate s).2⟩] ++
          if skip then [⟨kSkip, .bool true, .ok (some b!"true"), .bool true⟩] else []))
        = (streamEntries stream es).map (Entry.again flate) ++
          (if skip then [⟨kSkip, .bool true, .ok (some b!"true"), .bool true⟩] else []) := by
      rw [delKey_append, delKey_of_not fun e he => (hkeys e he).1]
      congr 1
      cases skip <;> simp [Entry.delKey, kSkip, kStream]
    have hskip : skipFlag ((streamEntries stream es).map (Entry.again flate) ++
          (if skip then [⟨kSkip, .bool true, .ok (some b!"true"), .bool true⟩] else [])) = skip := by
      unfold skipFlag
      rw [find_append, find_none fun e he => (hkeys e he).2]
      cases skip <;> simp [Entry.find, truthy]
    have hdel2 : Entry.delKey kSkip ((streamEntries stream es).map (Entry.again flate) ++
          (if skip then [⟨kSkip, .bool true, .ok (some b!"true"), .bool true⟩] else []))
        = (streamEntries stream es).map (Entry.again flate) := by
      rw [delKey_append, delKey_of_not fun e he => (hkeys e he).2]
      cases skip <;> simp [Entry.delKey]
    have hse : streamEntries stream ((streamEntries stream es).map (Entry.again flate) ++
          ([⟨kStream, s, (parseObj flate s).1, (parseObj flate s).2⟩] ++
          if skip then [⟨kSkip, .bool true, .ok (some b!"true"), .bool true⟩] else []))
        = (streamEntries stream es).map (Entry.again flate) := by
      rw [streamEntries, hdel, hdel2]
      exact setKey_map (again_key flate) hlen _
    have henc : encodeMaybe flate skip
        (Entry.find kFilter ((streamEntries stream es).map (Entry.again flate))) raw = .ok stream := by
      have hf : Entry.find kFilter (streamEntries stream es)
          = Entry.find kFilter (Entry.delKey kSkip (Entry.delKey kStream es)) :=
        find_setKey_ne (by simp [lengthEntry, kLength, kFilter])
      rw [← hf, find_eq_find?] at h2
      rw [find_map (again_key flate)]
      cases hc : (streamEntries stream es).find? (fun e => e.key = kFilter) with
      | none => simpa [hc] using h2
      | some e =>
        rw [hc] at h2
        simp only [Option.map_some] at h2 ⊢
        cases skip with
        | true => simpa [encodeMaybe] using h2
        | false =>
          have hek : e.key = kFilter := by simpa using List.find?_some hc
          have hmem := List.mem_of_find?_eq_some hc
          have he : e ∈ es := by
            rcases mem_setKey hmem with rfl | he
            · simp [lengthEntry, kLength, kFilter] at hek
            · simp only [Entry.delKey, List.mem_filter] at he
              exact he.1.1
          cases hv : e.val with
          | bytes f =>
            have := hsc e he f hv
            simp only [Entry.again, this]
            rw [hv] at h2
            exact h2
          | _ => rw [hv] at h2; simp [encodeMaybe, encodeStream] at h2
    have hd : (dictLoop b!"<<" ((streamEntries stream es).map (Entry.again flate))).1
        = .ok (some d) := by
      rw [← h3]
      apply dictLoop_congr
      simp only [List.map_map]
      apply List.map_congr_left
      intro e he
      simp only [Function.comp_apply]
      rw [(ih' e he).1]; rfl
    have := parseStream_intro (flate := flate) (es := (streamEntries stream es).map (Entry.again flate) ++
          ([⟨kStream, s, (parseObj flate s).1, (parseObj flate s).2⟩] ++
          if skip then [⟨kSkip, .bool true, .ok (some b!"true"), .bool true⟩] else []))
        (s := s) (raw := raw) (stream := stream) (d := d) h1
        (by rw [hdel, hskip, hdel2]; exact henc) (by rw [hse]; exact hd)
    rw [this, hdel, hskip, hse]
    refine Prod.ext ?_ ?_
    · simp [h4]
    · simp only [List.map_map]
      congr 2
      apply List.map_congr_left
      intro e he
      simp only [Function.comp_apply]
      rw [(ih' e he).2]; rfl

theorem after_bytes (flate : Bytes → Bytes) (l : List (Key × Obj)) :
    ∀ e ∈ parseVals flate l, ∀ f, e.val = .bytes f → e.after = .bytes f := by
  rw [parseVals_eq]
  intro e he f hf
  simp only [List.mem_map] at he
  obtain ⟨p, hp, rfl⟩ := he
  simp only at hf ⊢
  simp [hf, parseObj]

mutual
/-- serialising again what a successful serialisation left behind gives the same bytes and changes
nothing more -/
theorem parseObj_idem (flate : Bytes → Bytes) : (o : Obj) → ∀ b,
    (parseObj flate o).1 = .ok (some b) →
    parseObj flate (parseObj flate o).2 = (.ok (some b), (parseObj flate o).2)
  | .pobj v, b, h => by
    simp only [parseObj] at h ⊢
    rw [parseObj_idem flate v b h]
  | .ref i, b, h => by simp only [parseObj] at h ⊢; rw [h]
  | .bytes _, b, h => by simp only [parseObj] at h ⊢; rw [h]
  | .bool _, b, h => by simp only [parseObj] at h ⊢; rw [h]
  | .int _, b, h => by simp only [parseObj] at h ⊢; rw [h]
  | .flt _, b, h => by simp only [parseObj] at h ⊢; rw [h]
  | .str _, b, h => by simp only [parseObj] at h ⊢; rw [h]
  | .other, b, h => by simp [parseObj] at h
  | .seq l, b, h => by
    have ih := parseElems_idem flate l
    simp only [parseObj, parseList] at h ⊢
    have hok := listLoop_ok h
    rw [listLoop_good hok]
    have hel : parseElems flate ((parseElems flate l).map fun e => e.after)
        = (parseElems flate l).map fun e =>
          ⟨e.after, (parseObj flate e.after).1, (parseObj flate e.after).2⟩ := by
      simp [parseElems_eq]
    rw [hel]
    have hr : ∀ e ∈ parseElems flate l, parseObj flate e.after = (e.ret, e.after) := by
      intro e he
      obtain ⟨c, cs, hr⟩ := hok e he
      rw [ih e he _ hr, hr]
    have hmap : (parseElems flate l).map (fun e =>
          (⟨e.after, (parseObj flate e.after).1, (parseObj flate e.after).2⟩ : Elem))
        = (parseElems flate l).map fun e => ⟨e.after, e.ret, e.after⟩ := by
      apply List.map_congr_left
      intro e he
      rw [hr e he]
    rw [hmap]
    refine Prod.ext ?_ ?_
    · simp only
      rw [← h]
      apply listLoop_congr
      simp
    · simp only
      rw [listLoop_good (by
        intro e he
        simp only [List.mem_map] at he
        obtain ⟨e', he', rfl⟩ := he
        exact hok e' he')]
      simp
  | .dict items, b, h => by
    have ih := parseVals_idem flate items
    have hsc := after_bytes flate items
    cases hs : dget kStream items with
    | some s =>
      simp only [parseObj, hs] at h ⊢
      obtain ⟨hg, hp⟩ := parseStream_idem ih hsc h
      simp only [hg, hp]
    | none =>
      simp only [parseObj, hs, parseDict] at h ⊢
      have hok := dictLoop_ok h
      rw [dictLoop_good hok]
      have hg : dget kStream ((parseVals flate items).map fun e => (e.key, e.after)) = none := by
        rw [← find_parseVals flate, parseVals_map_after, find_map (again_key flate)]
        rw [← find_parseVals flate, find_eq_find?] at hs
        simp only [Option.map_eq_none_iff] at hs
        simp [hs]
      rw [hg, parseVals_map_after]
      have hr : ∀ e ∈ parseVals flate items, Entry.again flate e = ⟨e.key, e.after, e.ret, e.after⟩ := by
        intro e he
        obtain ⟨_, c, cs, _, hr⟩ := hok e he
        simp only [Entry.again, ih e he _ hr, hr]
      rw [List.map_congr_left hr]
      refine Prod.ext ?_ ?_
      · simp only
        rw [← h]
        apply dictLoop_congr
        simp
      · simp only
        rw [dictLoop_good (by
          intro e he
          simp only [List.mem_map] at he
          obtain ⟨e', he', rfl⟩ := he
          exact hok e' he')]
        simp

theorem parseVals_idem (flate : Bytes → Bytes) : (l : List (Key × Obj)) →
    ∀ e ∈ parseVals flate l, ∀ b, e.ret = .ok (some b) →
      parseObj flate e.after = (.ok (some b), e.after)
  | [] => by simp [parseVals]
  | (k, v) :: l => by
    have h1 := parseObj_idem flate v
    have h2 := parseVals_idem flate l
    intro e he b hb
    simp only [parseVals, List.mem_cons] at he
    rcases he with rfl | he
    · exact h1 b hb
    · exact h2 e he b hb

theorem parseElems_idem (flate : Bytes → Bytes) : (l : List Obj) →
    ∀ e ∈ parseElems flate l, ∀ b, e.ret = .ok (some b) →
      parseObj flate e.after = (.ok (some b), e.after)
  | [] => by simp [parseElems]
  | v :: l => by
    have h1 := parseObj_idem flate v
    have h2 := parseElems_idem flate l
    intro e he b hb
    simp only [parseElems, List.mem_cons] at he
    rcases he with rfl | he
    · exact h1 b hb
    · exact h2 e he b hb
end

end Verif
