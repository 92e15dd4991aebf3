import Verif.Spec.Meaning
import Verif.Lemmas.Serialize
/-! Lemmas for C08: induction over the value. -/
namespace Verif
open Spec

theorem latinBytes_eq (s : Str) : latinBytes s = s.map latin1 := rfl

theorem stringChars_eq (s : Str) : stringChars s = s.all safeChar := rfl


theorem nameChars_spec {k : Str} (h : nameChars k = true) :
    k.all isLatin = true ∧ (∀ c ∈ k.map latin1, isRegular c = true) ∧ 35 ∉ k.map latin1 := by
  simp only [nameChars, List.all_eq_true, Bool.and_eq_true, bne_iff_ne] at h
  refine ⟨?_, ?_, ?_⟩
  · simp only [List.all_eq_true]
    intro c hc
    simpa [isLatin] using (h c hc).1.1
  · intro b hb
    simp only [List.mem_map] at hb
    obtain ⟨c, hc, rfl⟩ := hb
    exact (h c hc).1.2
  · intro hb
    simp only [List.mem_map] at hb
    obtain ⟨c, hc, he⟩ := hb
    have h35 : (35 : UInt8) = latin1 '#' := by decide
    rw [h35] at he
    exact (h c hc).2 (latin1_inj (by simpa [isLatin] using (h c hc).1.1) (by decide) he)

theorem lexTo_meaningBytes {b : Bytes} {p : PObj} (h : meaningBytes b = some p) :
    b ≠ [] ∧ ∃ t, LexTo b t ∧ ReadsTo t p := by
  unfold meaningBytes at h
  split at h
  · rename_i w
    split at h
    · rename_i hw
      simp only [Option.some.injEq] at h
      subst h
      simp only [List.all_eq_true, Bool.and_eq_true, bne_iff_ne] at hw
      refine ⟨by simp, [.name w], LexTo.name (fun c hc => (hw c hc).1)
        (fun h => (hw 35 h).2 rfl), ?_⟩
      intro st
      simp [shiftAll, shift]
    · simp at h
  · rename_i w
    split at h
    · rename_i hw
      simp only [Option.some.injEq] at h
      subst h
      refine ⟨by simp, [.hex w.dropLast], ?_, ?_⟩
      · have hne : w ≠ [] := by rintro rfl; simp at hw
        have : w = w.dropLast ++ [62] := by
          have h1 := List.dropLast_concat_getLast hne
          have h2 : w.getLast hne = 62 := by
            have := hw.1
            rw [List.getLast?_eq_some_getLast hne] at this
            simpa using this
          rw [h2] at h1
          exact h1.symm
        have h3 := LexTo.hex hw.2.1 hw.2.2
        rwa [← this] at h3
      · intro st
        simp [shiftAll, shift]
    · simp at h
  · simp at h

theorem pairUp_flat (ps : List (Bytes × PObj)) :
    pairUp (ps.flatMap fun p => [.name p.1, p.2]) = some ps := by
  induction ps with
  | nil => rfl
  | cons p ps ih => simp [pairUp, ih]

theorem dget_stream_none {items : List (Key × Obj)}
    (h : items.any (fun p => p.1 = .str c!"__stream__") = false) : dget kStream items = none := by
  apply dget_none
  intro p hp
  simp only [List.any_eq_false, decide_eq_true_eq] at h
  exact h p hp

/-- Serialised bytes of items read as the flattened list of names and values. -/
def ItemsOk (flate : Bytes → Bytes) (items : List (Key × Obj)) (ps : List (Bytes × PObj)) : Prop :=
  ∃ b t, (∀ acc, (dictLoop acc (parseVals flate items)).1 = .ok (some (acc ++ b ++ b!">>"))) ∧
    (∀ rest, Sep rest → Sep (b ++ rest)) ∧ LexTo b t ∧
    ∀ st, shiftAll st t
      = some ((ps.flatMap fun p => [PObj.name p.1, p.2]).reverse.map Item.obj ++ st)

/-- Serialised bytes of elements read as a list of values. -/
def ElemsOk (flate : Bytes → Bytes) (l : List Obj) (ps : List PObj) : Prop :=
  ∃ b t, (∀ acc i, i ≠ 0 → (listLoop acc i (parseElems flate l)).1 = .ok (some (acc ++ b ++ b!"]"))) ∧
    (∀ rest, Sep rest → Sep (b ++ rest)) ∧ LexTo b t ∧
    ∀ st, shiftAll st t = some (ps.reverse.map Item.obj ++ st)

/-- The same for the list starting at index 0 (no blank before the first element). -/
def ElemsOk0 (flate : Bytes → Bytes) (l : List Obj) (ps : List PObj) : Prop :=
  ∃ b t, (∀ acc, (listLoop acc 0 (parseElems flate l)).1 = .ok (some (acc ++ b ++ b!"]"))) ∧
    LexTo b t ∧ ∀ st, shiftAll st t = some (ps.reverse.map Item.obj ++ st)

def ObjOk (flate : Bytes → Bytes) (o : Obj) (p : PObj) : Prop :=
  ∃ c cs t, (parseObj flate o).1 = .ok (some (c :: cs)) ∧ LexTo (c :: cs) t ∧ ReadsTo t p

theorem elems_cons {flate : Bytes → Bytes} {o : Obj} {l : List Obj} {p : PObj} {ps : List PObj}
    (h1 : ObjOk flate o p) (h2 : ElemsOk flate l ps) :
    ElemsOk flate (o :: l) (p :: ps) ∧ ElemsOk0 flate (o :: l) (p :: ps) := by
  obtain ⟨c, cs, t, hr, hl, hs⟩ := h1
  obtain ⟨b, u, hb, hsep, hlu, hsu⟩ := h2
  have hst : ∀ st, shiftAll st (t ++ u) = some ((p :: ps).reverse.map Item.obj ++ st) := by
    intro st
    rw [shiftAll_append, hs st]
    simp [hsu]
  refine ⟨⟨32 :: (c :: cs ++ b), t ++ u, ?_, ?_, ?_, hst⟩, ⟨c :: cs ++ b, t ++ u, ?_, ?_, hst⟩⟩
  · intro acc i hi
    simp only [parseElems, listLoop, hr]
    rw [hb _ _ (by omega)]
    simp [firstIn, hi]
  · intro rest _
    simp; decide
  · exact (hl.append hlu hsep).space
  · intro acc
    simp only [parseElems, listLoop, hr]
    rw [hb _ _ (by omega)]
    simp
  · exact hl.append hlu hsep

theorem elems_nil (flate : Bytes → Bytes) : ElemsOk flate [] [] ∧ ElemsOk0 flate [] [] := by
  constructor
  · exact ⟨[], [], by simp [parseElems, listLoop], by simp, LexTo.nil, by simp [shiftAll]⟩
  · exact ⟨[], [], by simp [parseElems, listLoop], LexTo.nil, by simp [shiftAll]⟩

theorem items_cons {flate : Bytes → Bytes} {k : Str} {o : Obj} {l : List (Key × Obj)} {p : PObj}
    {ps : List (Bytes × PObj)} (hk : nameChars k = true) (h1 : ObjOk flate o p)
    (h2 : ItemsOk flate l ps) : ItemsOk flate ((.str k, o) :: l) ((k.map latin1, p) :: ps) := by
  obtain ⟨c, cs, t, hr, hl, hs⟩ := h1
  obtain ⟨b, u, hb, hsep, hlu, hsu⟩ := h2
  obtain ⟨hlat, hreg, h35⟩ := nameChars_spec hk
  refine ⟨(47 :: k.map latin1) ++ 32 :: (c :: cs ++ b), .name (k.map latin1) :: (t ++ u), ?_, ?_, ?_, ?_⟩
  · intro acc
    have hek : encodeKey (.str k) = .ok (b!"/" ++ k.map latin1) := by
      simp [encodeKey, encodeLatin_ok hlat]
    have := dictLoop_cons_good (acc := acc) (es := parseVals flate l)
      (e := ⟨.str k, o, (parseObj flate o).1, (parseObj flate o).2⟩) hek hr
    simp only [parseVals]
    rw [this, hb]
    simp
  · intro rest _
    simp only [List.cons_append, sep_cons]
    decide
  · exact (LexTo.name hreg h35).append_space (hl.append hlu hsep)
  · intro st
    rw [← List.singleton_append, shiftAll_append]
    simp only [shiftAll, shift, Option.bind_some]
    rw [shiftAll_append, hs]
    simp [hsu]

theorem items_nil (flate : Bytes → Bytes) : ItemsOk flate [] [] :=
  ⟨[], [], by simp [parseVals, dictLoop], by simp, LexTo.nil, by simp [shiftAll]⟩

theorem objOk_seq {flate : Bytes → Bytes} {l : List Obj} {ps : List PObj}
    (h : ElemsOk0 flate l ps) : ObjOk flate (.seq l) (.arr ps) := by
  obtain ⟨b, t, hb, hl, hs⟩ := h
  refine ⟨91, b ++ [93], .lbrack :: (t ++ [.rbrack]), ?_, ?_, ?_⟩
  · simp only [parseObj, parseList, hb]
    simp
  · intro rest hr
    rw [List.cons_append, lexFrom_lbrack, List.append_assoc, hl _ (by simp; decide)]
    rw [List.singleton_append, lexFrom_rbrack]
    simp
  · intro st
    have h1 : shift st .lbrack = some (.openArr :: st) := rfl
    simp only [shiftAll, h1]
    rw [shiftAll_append, hs]
    have := popArr_objs ps st []
    simp only [List.append_nil] at this
    simp only [Option.bind_some, shiftAll, shift, this]

theorem objOk_dict {flate : Bytes → Bytes} {items : List (Key × Obj)} {ps : List (Bytes × PObj)}
    (hn : dget kStream items = none)
    (h : ItemsOk flate items ps) : ObjOk flate (.dict items) (.dict ps) := by
  obtain ⟨b, t, hb, hsep, hl, hs⟩ := h
  refine ⟨60, 60 :: (b ++ [62, 62]), .dictOpen :: (t ++ [.dictClose]), ?_, ?_, ?_⟩
  · simp only [parseObj, hn, parseDict, hb]
    simp
  · intro rest hr
    rw [List.cons_append, List.cons_append, lexFrom_dictOpen, List.append_assoc,
      hl _ (by simp; decide)]
    rw [List.cons_append, List.cons_append, List.nil_append, lexFrom_dictClose]
    simp
  · intro st
    have h1 : shift st .dictOpen = some (.openDict :: st) := rfl
    simp only [shiftAll, h1]
    rw [shiftAll_append, hs]
    have := popDict_objs (ps.flatMap fun p => [PObj.name p.1, p.2]) st []
    simp only [List.append_nil] at this
    simp only [Option.bind_some, shiftAll, shift, this, pairUp_flat, Option.map_some]

mutual
theorem obj_ok (flate : Bytes → Bytes) : (o : Obj) → ∀ p, meaning o = some p → ObjOk flate o p
  | .ref i, p, h => by
    simp only [meaning, Option.some.injEq] at h
    subst h
    cases hi : intStr i with
    | nil => exact absurd hi (intStr_ne_nil i)
    | cons d ds =>
      refine ⟨latin1 d, ds.map latin1 ++ b!" 0 R",
        [.word ((intStr i).map latin1), .word b!"0", .word b!"R"], ?_, ?_, ?_⟩
      · simp [parseObj, hi]
      · have h1 : LexTo ((intStr i).map latin1) [.word ((intStr i).map latin1)] :=
          LexTo.word (by simp [intStr_ne_nil]) (intStr_regular i)
        have h2 : LexTo b!"0" [.word b!"0"] := LexTo.word (by simp) (by decide)
        have h3 : LexTo b!"R" [.word b!"R"] := LexTo.word (by simp) (by decide)
        have := h1.append_space (h2.append_space h3)
        rw [hi] at this ⊢
        simpa using this
      · intro st
        simp only [shiftAll, shift_int]
        rfl
  | .bool b, p, h => by
    simp only [meaning, Option.some.injEq] at h
    subst h
    cases b
    · exact ⟨102, b!"alse", [.word b!"false"], by simp [parseObj],
        LexTo.word (by simp) (by decide), fun st => rfl⟩
    · exact ⟨116, b!"rue", [.word b!"true"], by simp [parseObj],
        LexTo.word (by simp) (by decide), fun st => rfl⟩
  | .int i, p, h => by
    simp only [meaning, Option.some.injEq] at h
    subst h
    cases hi : intStr i with
    | nil => exact absurd hi (intStr_ne_nil i)
    | cons d ds =>
      refine ⟨latin1 d, ds.map latin1, [.word ((intStr i).map latin1)], by simp [parseObj, hi], ?_, ?_⟩
      · have : LexTo ((intStr i).map latin1) [.word ((intStr i).map latin1)] :=
          LexTo.word (by simp [intStr_ne_nil]) (intStr_regular i)
        simpa [hi] using this
      · intro st
        simp only [shiftAll, shift_int]
  | .flt r, p, h => by
    simp only [meaning] at h
    split at h
    · rename_i hr
      simp only [Option.some.injEq] at h
      subst h
      rw [latinBytes_eq] at hr ⊢
      cases hi : r.map latin1 with
      | nil => rw [hi] at hr; simp [isReal] at hr
      | cons d ds =>
        refine ⟨d, ds, [.word (d :: ds)], by simp [parseObj, hi], ?_, ?_⟩
        · rw [← hi]
          exact LexTo.word (by simp [hi]) (real_regular hr)
        · intro st
          rw [hi] at hr
          simp only [shiftAll, shift_real hr]
    · simp at h
  | .str s, p, h => by
    simp only [meaning] at h
    split at h
    · rename_i hs
      simp only [Option.some.injEq] at h
      subst h
      rw [stringChars_eq] at hs
      have hl : (('(' :: escParens s ++ [')']).all isLatin) = true := by
        have : s.all isLatin = true := by
          simp only [List.all_eq_true] at hs ⊢
          intro c hc
          have := hs c hc
          simp only [safeChar, Bool.and_eq_true] at this
          exact this.1.1
        simp only [List.cons_append, List.all_cons, List.all_append, escParens_latin, this]
        decide
      refine ⟨latin1 '(', (escParens s ++ [')']).map latin1, [.str (s.map latin1)], ?_, ?_, ?_⟩
      · simp only [parseObj, encodeLatin_ok hl]
        simp
      · have := lexTo_str hs
        simpa using this
      · intro st; rfl
    · simp at h
  | .bytes b, p, h => by
    simp only [meaning] at h
    obtain ⟨hne, t, hl, hr⟩ := lexTo_meaningBytes h
    cases b with
    | nil => exact absurd rfl hne
    | cons c cs => exact ⟨c, cs, t, by simp [parseObj], hl, hr⟩
  | .seq l, p, h => by
    simp only [meaning] at h
    split at h
    · rename_i ps hps
      simp only [Option.some.injEq] at h
      subst h
      exact objOk_seq (elems_ok flate l ps hps).2
    · simp at h
  | .dict items, p, h => by
    simp only [meaning] at h
    split at h
    · simp at h
    · rename_i hst
      split at h
      · rename_i ps hps
        simp only [Option.some.injEq] at h
        subst h
        exact objOk_dict (dget_stream_none (Bool.not_eq_true _ ▸ hst)) (items_ok flate items ps hps)
      · simp at h
  | .pobj v, p, h => by
    simp only [meaning] at h
    obtain ⟨c, cs, t, hr, hl, hs⟩ := obj_ok flate v p h
    exact ⟨c, cs, t, by simp only [parseObj, hr], hl, hs⟩
  | .other, p, h => by simp [meaning] at h

theorem elems_ok (flate : Bytes → Bytes) : (l : List Obj) → ∀ ps, meaningList l = some ps →
    ElemsOk flate l ps ∧ ElemsOk0 flate l ps
  | [], ps, h => by
    simp only [meaningList, Option.some.injEq] at h
    subst h
    exact elems_nil flate
  | o :: l, ps, h => by
    simp only [meaningList] at h
    split at h
    · rename_i p ps' hp hps
      simp only [Option.some.injEq] at h
      subst h
      exact elems_cons (obj_ok flate o p hp) (elems_ok flate l ps' hps).1
    · simp at h

theorem items_ok (flate : Bytes → Bytes) : (l : List (Key × Obj)) → ∀ ps, meaningItems l = some ps →
    ItemsOk flate l ps
  | [], ps, h => by
    simp only [meaningItems, Option.some.injEq] at h
    subst h
    exact items_nil flate
  | (.str k, o) :: l, ps, h => by
    simp only [meaningItems] at h
    split at h
    · rename_i hk
      split at h
      · rename_i p ps' hp hps
        simp only [Option.some.injEq] at h
        subst h
        exact items_cons hk (obj_ok flate o p hp) (items_ok flate l ps' hps)
      · simp at h
    · simp at h
  | (.int _, _) :: _, ps, h => by simp [meaningItems] at h
end

end Verif
