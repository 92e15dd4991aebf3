import Verif.Model.NameTree
import Verif.Lemmas.Table
/-! Lemmas about the name tree builder. -/
namespace Verif
open Spec

/-- the dict of a finished node -/
def nameDict (field : Key) (lo hi : Str) (body : List Obj) : List (Key × Obj) :=
  [(kLimits, .seq [.str lo, .str hi]), (field, .seq body)]

/-- the dict of a node under construction -/
def nameDictOpen (field : Key) (lo : Str) (body : List Obj) : List (Key × Obj) :=
  [(kLimits, .seq [.str lo, .other]), (field, .seq body)]

theorem append_body {field : Key} (hf : field ≠ kLimits) (lo : Str) : ∀ (l acc : List Obj),
    l.foldl (fun d v => dictAppend field v d) (nameDictOpen field lo acc) = nameDictOpen field lo (acc ++ l) := by
  intro l
  induction l with
  | nil => intro acc; simp
  | cons v l ih =>
    intro acc
    have : dictAppend field v (nameDictOpen field lo acc) = nameDictOpen field lo (acc ++ [v]) := by
      simp [dictAppend, nameDictOpen, dget, dset, Ne.symm hf]
    rw [List.foldl_cons, this, ih]
    simp

theorem setHi_open {field : Key} (lo hi : Str) (body : List Obj) :
    setHi hi (nameDictOpen field lo body) = nameDict field lo hi body := by
  simp [setHi, nameDictOpen, nameDict, dget, dset]

/-- bodies of a list of items -/
def bodies (l : List NameItem) : List Obj := (l.map NameItem.body).flatten

/-- the rest of a chunk, once its node is open -/
theorem nameLoop_inside {field : Key} (hf : field ≠ kLimits) {len n : Nat} (lo : Str) :
    ∀ (its : List NameItem) (i : Nat) (b : Base) (count : Nat) (out) (acc : List Obj) (rest : List NameItem),
      its ≠ [] → i % 7 ≠ 0 → i % 7 + its.length ≤ 7 → (i % 7 + its.length = 7 ∨ i + its.length = len) →
      i + its.length ≤ len → b.dictAt n = some (nameDictOpen field lo acc) →
      ∃ b', nameLoop field len i ⟨b, n, count, out⟩ (its ++ rest) =
          nameLoop field len (i + its.length) ⟨b', n, count, out ++ [(n, lo, (its.getLastD ⟨[], [], []⟩).hi)]⟩ rest ∧
        (b.Wf → b'.Wf) ∧ b'.count = b.count ∧
        b'.dictAt n = some (nameDict field lo (its.getLastD ⟨[], [], []⟩).hi (acc ++ bodies its)) ∧
        ∀ j, j ≠ n → b'.dictAt j = b.dictAt j := by
  intro its
  induction its with
  | nil => intro _ _ _ _ _ _ h; exact absurd rfl h
  | cons it its ih =>
    intro i b count out acc rest _ hi h7 hend hle hd
    simp only [List.length_cons] at h7 hend hle
    have hopen : nameOpen field i ⟨b, n, count, out⟩ it = ⟨b, n, count, out⟩ := by
      unfold nameOpen; rw [if_neg hi]
    let b1 := b.modify n (fun d => it.body.foldl (fun d v => dictAppend field v d) d)
    have hd1 : b1.dictAt n = some (nameDictOpen field lo (acc ++ it.body)) := by
      simp only [b1]
      rw [dictAt_modify_self _ hd, append_body hf]
    cases its with
    | nil =>
      have hclose : (i + 1) % 7 = 0 ∨ i + 1 = len := by
        simp only [List.length_nil] at h7 hend hle
        rcases hend with h | h
        · left; omega
        · right; omega
      let b2 := b1.modify n (setHi it.hi)
      have hd2 : b2.dictAt n = some (nameDict field lo it.hi (acc ++ it.body)) := by
        simp only [b2]
        rw [dictAt_modify_self _ hd1, setHi_open]
      refine ⟨b2, ?_, fun h => (h.modify _ _).modify _ _, by simp only [b2, b1, modify_count], ?_, ?_⟩
      · simp only [List.cons_append, List.nil_append, nameLoop, hopen]
        have : limitsAt b2 n = (lo, it.hi) := by
          simp [limitsAt, hd2, nameDict, dget]
        simp only [nameAppend, nameClose, if_pos hclose, List.length_cons, List.length_nil]
        rw [show (Base.modify (b.modify n fun d => List.foldl (fun d v => dictAppend field v d) d it.body) n
          (setHi it.hi)) = b2 from rfl, this]
        rfl
      · rw [hd2]; simp [bodies]
      · intro j hj
        simp only [b2, b1]
        rw [dictAt_modify_ne _ _ hj, dictAt_modify_ne _ _ hj]
    | cons it2 its =>
      simp only [List.length_cons] at h7 hend hle
      have hclose : ¬ ((i + 1) % 7 = 0 ∨ i + 1 = len) := by
        rintro (h | h)
        · omega
        · omega
      obtain ⟨b', h1, h2, h2', h3, h4⟩ := ih (i + 1) b1 count out (acc ++ it.body) rest (by simp) (by omega)
        (by simp only [List.length_cons]; omega) (by simp only [List.length_cons]; omega)
        (by simp only [List.length_cons]; omega) hd1
      refine ⟨b', ?_, fun h => h2 (h.modify _ _), by rw [h2']; exact modify_count _ _ _, ?_, ?_⟩
      · rw [List.cons_append, nameLoop, hopen]
        simp only [nameAppend, nameClose, if_neg hclose]
        rw [show (b.modify n fun d => List.foldl (fun d v => dictAppend field v d) d it.body) = b1 from rfl, h1]
        simp only [List.length_cons, List.getLastD_cons]
        congr 1
        omega
      · rw [h3]
        simp [bodies]
      · intro j hj
        rw [h4 j hj]
        exact dictAt_modify_ne _ _ hj

/-- a whole chunk -/
theorem nameLoop_chunk {field : Key} (hf : field ≠ kLimits) {len : Nat} (it : NameItem) (its : List NameItem)
    (i : Nat) (b : Base) (cur count : Nat) (out) (rest : List NameItem) (hw : b.Wf)
    (hi : i % 7 = 0) (h7 : its.length < 7) (hend : its.length = 6 ∨ i + its.length + 1 = len)
    (hle : i + its.length + 1 ≤ len) :
    ∃ b', nameLoop field len i ⟨b, cur, count, out⟩ (it :: its ++ rest) =
        nameLoop field len (i + its.length + 1)
          ⟨b', b.count, count + 1, out ++ [(b.count, it.lo, ((it :: its).getLastD ⟨[], [], []⟩).hi)]⟩ rest ∧
      b'.Wf ∧ b'.count = b.count + 1 ∧
      b'.dictAt b.count = some (nameDict field it.lo ((it :: its).getLastD ⟨[], [], []⟩).hi (bodies (it :: its))) ∧
      ∀ j, j ≠ b.count → b'.dictAt j = b.dictAt j := by
  let n := b.count
  let b0 := ((b.addDict []).2.modify n (dset kLimits (.seq [.str it.lo, .other]))).modify n (dset field (.seq []))
  have hw0 : b0.Wf := ((hw.addDict _).modify _ _).modify _ _
  have hd0 : b0.dictAt n = some (nameDictOpen field it.lo []) := by
    simp only [b0]
    rw [dictAt_modify_self _ (dictAt_modify_self _ (dictAt_add_self hw []))]
    simp [dset, nameDictOpen, Ne.symm hf]
  have hoth : ∀ j, j ≠ n → b0.dictAt j = b.dictAt j := by
    intro j hj
    simp only [b0]
    rw [dictAt_modify_ne _ _ hj, dictAt_modify_ne _ _ hj, dictAt_add_ne hw _ hj]
  have hc0 : b0.count = n + 1 := by simp only [b0, modify_count, addDict_count]; rfl
  let b1 := b0.modify n (fun d => it.body.foldl (fun d v => dictAppend field v d) d)
  have hd1 : b1.dictAt n = some (nameDictOpen field it.lo it.body) := by
    simp only [b1]
    rw [dictAt_modify_self _ hd0, append_body hf, List.nil_append]
  have hopen : nameOpen field i ⟨b, cur, count, out⟩ it = ⟨b0, n, count + 1, out⟩ := by
    unfold nameOpen; rw [if_pos hi]; rfl
  cases its with
  | nil =>
    have hclose : (i + 1) % 7 = 0 ∨ i + 1 = len := by
      simp only [List.length_nil] at hend
      rcases hend with h | h
      · omega
      · right; omega
    let b2 := b1.modify n (setHi it.hi)
    have hd2 : b2.dictAt n = some (nameDict field it.lo it.hi it.body) := by
      simp only [b2]
      rw [dictAt_modify_self _ hd1, setHi_open]
    refine ⟨b2, ?_, (hw0.modify _ _).modify _ _, by simp only [b2, b1, modify_count]; exact hc0, ?_, ?_⟩
    · rw [List.cons_append, List.nil_append, nameLoop, hopen]
      have : limitsAt b2 n = (it.lo, it.hi) := by
        simp [limitsAt, hd2, nameDict, dget]
      simp only [nameAppend, nameClose, if_pos hclose, List.length_nil]
      rw [show (Base.modify (b0.modify n fun d => List.foldl (fun d v => dictAppend field v d) d it.body) n
        (setHi it.hi)) = b2 from rfl, this]
      rfl
    · rw [hd2]; simp [bodies]
    · intro j hj
      simp only [b2, b1]
      rw [dictAt_modify_ne _ _ hj, dictAt_modify_ne _ _ hj, hoth j hj]
  | cons it2 its =>
    simp only [List.length_cons] at h7 hend hle
    have hclose : ¬ ((i + 1) % 7 = 0 ∨ i + 1 = len) := by
      rintro (h | h)
      · omega
      · omega
    obtain ⟨b', h1, h2, h2', h3, h4⟩ := nameLoop_inside (len := len) hf it.lo (it2 :: its) (i + 1) b1 (count + 1) out it.body rest
      (by simp) (by omega) (by simp only [List.length_cons]; omega) (by simp only [List.length_cons]; omega)
      (by simp only [List.length_cons]; omega) hd1
    refine ⟨b', ?_, h2 (hw0.modify _ _), by rw [h2']; simp only [b1, modify_count]; exact hc0, ?_, ?_⟩
    · rw [List.cons_append, nameLoop, hopen]
      simp only [nameAppend, nameClose, if_neg hclose]
      rw [show (b0.modify n fun d => List.foldl (fun d v => dictAppend field v d) d it.body) = b1 from rfl, h1]
      simp only [List.length_cons, List.getLastD_cons]
      congr 1
      omega
    · rw [h3]
      simp [bodies]
    · intro j hj
      rw [h4 j hj]
      simp only [b1]
      rw [dictAt_modify_ne _ _ hj, hoth j hj]

/-- groups of seven, the last one maybe shorter -/
inductive Chunked : List (List NameItem) → Prop
  | last {it its} : its.length < 7 → Chunked [it :: its]
  | cons {it its c cs} : its.length = 6 → Chunked (c :: cs) → Chunked ((it :: its) :: c :: cs)

theorem chunked_exists : ∀ (n : Nat) (l : List NameItem), l.length ≤ n → l ≠ [] →
    ∃ cs, Chunked cs ∧ cs.flatten = l := by
  intro n
  induction n with
  | zero =>
    intro l h hne
    exact absurd (List.length_eq_zero_iff.1 (by omega)) hne
  | succ n ih =>
    intro l h hne
    obtain ⟨it, l, rfl⟩ := List.exists_cons_of_ne_nil hne
    by_cases hl : l.length < 7
    · exact ⟨[it :: l], .last hl, by simp⟩
    · obtain ⟨cs, h1, h2⟩ := ih (l.drop 6) (by simp at h ⊢; omega) (by
        intro e
        have := congrArg List.length e
        simp at this; omega)
      cases cs with
      | nil => cases h1
      | cons c cs =>
        refine ⟨(it :: l.take 6) :: c :: cs, .cons (by simp; omega) h1, ?_⟩
        rw [List.flatten_cons, h2]
        simp

/-- the nodes created for the chunks -/
inductive Nodes (field : Key) (tbl : Table) : Nat → List (List NameItem) → List (Nat × Str × Str) → Prop
  | nil {n} : Nodes field tbl n [] []
  | cons {n it its cs out} : tbl n = some (nameDict field it.lo ((it :: its).getLastD ⟨[], [], []⟩).hi (bodies (it :: its))) →
      Nodes field tbl (n + 1) cs out →
      Nodes field tbl n ((it :: its) :: cs) ((n, it.lo, ((it :: its).getLastD ⟨[], [], []⟩).hi) :: out)

theorem nameLoop_chunks {field : Key} (hf : field ≠ kLimits) {len : Nat} : ∀ (cs : List (List NameItem)), Chunked cs →
    ∀ (i : Nat) (b : Base) (cur count : Nat) (out), b.Wf → i % 7 = 0 → i + cs.flatten.length = len →
    ∃ b' new, nameLoop field len i ⟨b, cur, count, out⟩ cs.flatten =
        ⟨b', b.count + cs.length - 1, count + cs.length, out ++ new⟩ ∧
      b'.Wf ∧ b'.count = b.count + cs.length ∧ Nodes field b'.dictAt b.count cs new ∧
      ∀ j, j < b.count → b'.dictAt j = b.dictAt j := by
  intro cs hcs
  induction hcs with
  | @last it its h7 =>
    intro i b cur count out hw hi hlen
    simp only [List.flatten_cons, List.flatten_nil, List.append_nil, List.length_cons] at hlen
    obtain ⟨b', h1, h2, h3, h4, h5⟩ := nameLoop_chunk hf it its i b cur count out [] hw hi h7 (by omega) (by omega)
      (len := len)
    refine ⟨b', [(b.count, it.lo, ((it :: its).getLastD ⟨[], [], []⟩).hi)], ?_, h2, by simpa using h3, .cons h4 .nil,
      fun j hj => h5 j (by omega)⟩
    simp only [List.flatten_cons, List.flatten_nil]
    rw [h1, nameLoop]
    simp
  | @cons it its c cs h6 _ ih =>
    intro i b cur count out hw hi hlen
    rw [List.flatten_cons, List.length_append, List.length_cons] at hlen
    obtain ⟨b1, h1, h2, h3, h4, h5⟩ := nameLoop_chunk hf it its i b cur count out (c :: cs).flatten hw hi (by omega)
      (by omega) (by omega) (len := len)
    obtain ⟨b', new, g1, g2, g3, g4, g5⟩ := ih (i + its.length + 1) b1 b.count (count + 1)
      (out ++ [(b.count, it.lo, ((it :: its).getLastD ⟨[], [], []⟩).hi)]) h2 (by omega) (by omega)
    refine ⟨b', (b.count, it.lo, ((it :: its).getLastD ⟨[], [], []⟩).hi) :: new, ?_, g2, ?_, ?_, ?_⟩
    · rw [List.flatten_cons, h1, g1, h3]
      simp only [List.length_cons, List.append_assoc, List.cons_append, List.nil_append]
      congr 1 <;> omega
    · rw [g3, h3]; simp only [List.length_cons]; omega
    · rw [h3] at g4
      refine .cons ?_ g4
      rw [g5 b.count (by omega), h4]
    · intro j hj
      rw [g5 j (by omega), h5 j (by omega)]

end Verif
