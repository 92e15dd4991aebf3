import Verif.Model.Trees
/-! Lemmas about the table of dict objects: `addDict`, `modify`, `dictAt`. -/
namespace Verif

/-- ids are positions -/
def Base.Wf (b : Base) : Prop := b.count = b.content.length + 1

theorem Base.Wf.addDict {b : Base} (h : b.Wf) (d) : (b.addDict d).2.Wf := by
  unfold Base.Wf at *
  simp [Base.addDict, h]

theorem Base.Wf.modify {b : Base} (h : b.Wf) (id f) : (b.modify id f).Wf := by
  unfold Base.Wf at *
  cases id <;> simp [Base.modify, h]

theorem modify_count (b : Base) (id f) : (b.modify id f).count = b.count := by
  cases id <;> simp [Base.modify]

theorem dictAt_lt {b : Base} (h : b.Wf) {id : Nat} {d} (hd : b.dictAt id = some d) : 0 < id ∧ id < b.count := by
  unfold Base.Wf at h
  cases id with
  | zero => simp [Base.dictAt] at hd
  | succ n =>
    simp only [Base.dictAt] at hd
    split at hd
    · rename_i o
      have := (List.getElem?_eq_some_iff.1 o).1
      omega
    · cases hd

theorem dictAt_add_self {b : Base} (h : b.Wf) (d) : (b.addDict d).2.dictAt b.count = some d := by
  unfold Base.Wf at h
  simp [Base.addDict, Base.dictAt, h]

theorem dictAt_add_ne {b : Base} (h : b.Wf) (d) {id : Nat} (hi : id ≠ b.count) :
    (b.addDict d).2.dictAt id = b.dictAt id := by
  unfold Base.Wf at h
  cases id with
  | zero => rfl
  | succ n =>
    simp only [Base.addDict, Base.dictAt]
    by_cases hn : n < b.content.length
    · rw [List.getElem?_append_left hn]
    · have h1 : b.content[n]? = none := List.getElem?_eq_none (by omega)
      have h2 : (b.content ++ [⟨b.count, .dict d⟩])[n]? = none := List.getElem?_eq_none (by simp; omega)
      rw [h1, h2]

theorem dictAt_count {b : Base} (h : b.Wf) : b.dictAt b.count = none := by
  cases hd : b.dictAt b.count with
  | none => rfl
  | some d =>
    have := dictAt_lt h hd
    omega

theorem dictAt_modify_ne (b : Base) {id id' : Nat} (f) (hi : id' ≠ id) :
    (b.modify id f).dictAt id' = b.dictAt id' := by
  cases id with
  | zero => rfl
  | succ n =>
    cases id' with
    | zero => rfl
    | succ m =>
      simp only [Base.modify, Base.dictAt, List.getElem?_modify]
      have : n ≠ m := by omega
      simp [this]

theorem dictAt_modify_self {b : Base} {id : Nat} (f) {d} (hd : b.dictAt id = some d) :
    (b.modify id f).dictAt id = some (f d) := by
  cases id with
  | zero => simp [Base.dictAt] at hd
  | succ n =>
    simp only [Base.dictAt] at hd
    simp only [Base.modify, Base.dictAt, List.getElem?_modify]
    split at hd
    · rename_i i e heq
      cases hd
      rw [heq]
      simp [PDFObj.mapDict]
    · cases hd

theorem dictAt_modify (b : Base) (id id' : Nat) (f) :
    (b.modify id f).dictAt id' = if id' = id then (b.dictAt id').map f else b.dictAt id' := by
  by_cases h : id' = id
  · subst h
    rw [if_pos rfl]
    cases hd : b.dictAt id' with
    | some d => rw [dictAt_modify_self f hd]; rfl
    | none =>
      cases id' with
      | zero => rfl
      | succ n =>
        simp only [Base.dictAt] at hd
        simp only [Base.modify, Base.dictAt, List.getElem?_modify]
        split at hd
        · cases hd
        · rename_i hx
          cases hc : b.content[n]? with
          | none => simp
          | some o =>
            obtain ⟨i, v⟩ := o
            cases v with
            | dict e => exact absurd hc (hx i e)
            | _ => simp [PDFObj.mapDict]
  · rw [if_neg h, dictAt_modify_ne b f h]

theorem addDict_count (b : Base) (d) : (b.addDict d).2.count = b.count + 1 := rfl

/-- `addDict` is `Base.add` of the dict -/
theorem addDict_add (b : Base) (d) :
    b.add (.dict d) = (.ok ⟨(b.addDict d).1, .dict d⟩, (b.addDict d).2) := by
  simp [Base.add, allowedType, Base.addDict]

end Verif
