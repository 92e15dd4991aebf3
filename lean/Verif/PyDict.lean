import Verif.Py
/-! Python dicts as insertion-ordered association lists. -/
namespace Verif

variable {κ ν : Type}

/-- `d[k] = v`: an existing key keeps its place, a new one goes to the end. -/
def dset [DecidableEq κ] (k : κ) (v : ν) : List (κ × ν) → List (κ × ν)
  | [] => [(k, v)]
  | p :: l => if p.1 = k then (k, v) :: l else p :: dset k v l

/-- `d.get(k)` -/
def dget [DecidableEq κ] (k : κ) : List (κ × ν) → Option ν
  | [] => none
  | p :: l => if p.1 = k then some p.2 else dget k l

/-- `d.update(e)` -/
def dupdate [DecidableEq κ] (d e : List (κ × ν)) : List (κ × ν) :=
  e.foldl (fun d p => dset p.1 p.2 d) d

variable [DecidableEq κ]

theorem dget_dset (k k' : κ) (v : ν) (d : List (κ × ν)) :
    dget k' (dset k v d) = if k' = k then some v else dget k' d := by
  induction d with
  | nil =>
    simp only [dset, dget]
    by_cases h : k' = k
    · simp [h]
    · simp [h, Ne.symm h]
  | cons p d ih =>
    simp only [dset]
    by_cases hp : p.1 = k
    · rw [if_pos hp]
      simp only [dget]
      by_cases h : k' = k
      · simp [h]
      · rw [if_neg (fun h' : k = k' => h h'.symm), if_neg h, if_neg (fun h' => h (h'.symm.trans hp))]
    · rw [if_neg hp]
      simp only [dget, ih]
      by_cases h : p.1 = k'
      · rw [if_pos h, if_neg (fun h' => hp (h.trans h')), if_pos h]
      · rw [if_neg h, if_neg h]

@[simp] theorem dget_dset_self (k : κ) (v : ν) (d : List (κ × ν)) : dget k (dset k v d) = some v := by
  simp [dget_dset]

theorem dget_dset_ne {k k' : κ} (h : k ≠ k') (v : ν) (d : List (κ × ν)) :
    dget k' (dset k v d) = dget k' d := by
  simp [dget_dset, Ne.symm h]

theorem dget_mem {k : κ} {v : ν} {d : List (κ × ν)} (h : dget k d = some v) : (k, v) ∈ d := by
  induction d with
  | nil => simp [dget] at h
  | cons p d ih =>
    simp only [dget] at h
    split at h
    · rename_i hp
      cases h
      simp [← hp]
    · exact List.mem_cons_of_mem _ (ih h)

theorem dget_eq_none {k : κ} {d : List (κ × ν)} : dget k d = none ↔ k ∉ d.map Prod.fst := by
  induction d with
  | nil => simp [dget]
  | cons p d ih =>
    simp only [dget]
    split
    · rename_i hp; simp [hp]
    · rename_i hp
      rw [ih]
      simp [Ne.symm hp]

theorem dset_of_none {k : κ} {v : ν} {d : List (κ × ν)} (h : dget k d = none) :
    dset k v d = d ++ [(k, v)] := by
  induction d with
  | nil => rfl
  | cons p d ih =>
    simp only [dget] at h
    split at h
    · cases h
    · rename_i hp
      simp [dset, hp, ih h]

theorem dget_of_mem {k : κ} {v : ν} {d : List (κ × ν)} (hn : (d.map Prod.fst).Nodup) (h : (k, v) ∈ d) :
    dget k d = some v := by
  induction d with
  | nil => simp at h
  | cons p d ih =>
    simp only [List.map_cons, List.nodup_cons] at hn
    rcases List.mem_cons.1 h with rfl | h
    · simp [dget]
    · have : p.1 ≠ k := by
        rintro rfl
        exact hn.1 (List.mem_map.2 ⟨_, h, rfl⟩)
      simp [dget, this, ih hn.2 h]

theorem dset_keys (k : κ) (v : ν) (d : List (κ × ν)) :
    (dset k v d).map Prod.fst = if k ∈ d.map Prod.fst then d.map Prod.fst else d.map Prod.fst ++ [k] := by
  induction d with
  | nil => simp [dset]
  | cons p d ih =>
    simp only [dset]
    split
    · rename_i hp; simp [hp]
    · rename_i hp
      have : ¬ k = p.1 := fun h => hp h.symm
      simp only [List.map_cons, ih, List.mem_cons, this, false_or]
      split <;> rfl

theorem dset_nodup {k : κ} {v : ν} {d : List (κ × ν)} (h : (d.map Prod.fst).Nodup) :
    ((dset k v d).map Prod.fst).Nodup := by
  rw [dset_keys]
  split
  · exact h
  · rename_i hk
    rw [List.nodup_append]
    refine ⟨h, by simp, ?_⟩
    intro a ha b hb
    simp only [List.mem_singleton] at hb
    subst hb
    rintro rfl
    exact hk ha

/-- the last value given for `k`, or the old one -/
theorem dget_dupdate (d e : List (κ × ν)) (k : κ) :
    dget k (dupdate d e) = (dget k e.reverse).or (dget k d) := by
  unfold dupdate
  induction e generalizing d with
  | nil => simp [dget]
  | cons p e ih =>
    simp only [List.foldl_cons, List.reverse_cons]
    rw [ih, dget_dset]
    have : ∀ l : List (κ × ν), dget k (l ++ [p]) = (dget k l).or (if p.1 = k then some p.2 else none) := by
      intro l
      induction l with
      | nil => simp [dget]
      | cons q l ih =>
        simp only [List.cons_append, dget, ih]
        split <;> simp
    rw [this, Option.or_assoc]
    congr 1
    by_cases h : k = p.1
    · simp [h]
    · simp [h, Ne.symm h]

end Verif
