import Verif.Spec.RichText
import Mathlib.Tactic.ByContra
/-! C25: nested rich text becomes flat parts with the same characters and cascaded styles. -/
namespace Verif
open Spec

variable {V : Type}

/-- a text part without text -/
def RPart.blank : RPart V → Bool
  | .text _ [] _ _ => true
  | _ => false

/-- the characters of the parts that have any -/
def atomsOf (c : List (RPart V)) : List (RAtom V) := (c.filter fun p => !p.blank).flatMap partAtoms

/-- how many parts are equal to one -/
def cnt (E : DictEq V) (c : List (RPart V)) (q : RPart V) : Nat := c.countP fun p => p.same E q

theorem same_refl (E : DictEq V) (p : RPart V) : p.same E p = true := by
  cases p <;> simp [RPart.same, E.refl]

theorem same_blank {E : DictEq V} {p q : RPart V} (h : p.same E q = true) (hq : q.blank = true) : p.blank = true := by
  cases p with
  | br => cases q <;> simp [RPart.same, RPart.blank] at h hq
  | text s t i v =>
    cases q with
    | br => simp [RPart.same] at h
    | text s' t' i' v' =>
      cases t' with
      | cons a l => simp [RPart.blank] at hq
      | nil =>
        simp only [RPart.same, Bool.and_eq_true, decide_eq_true_eq] at h
        rw [h.1.1.2]; rfl

theorem same_cong {E : DictEq V} {p q r : RPart V} (h : p.same E q = true) : p.same E r = q.same E r := by
  cases p with
  | br => cases q with
    | br => rfl
    | text => simp [RPart.same] at h
  | text s t i v =>
    cases q with
    | br => simp [RPart.same] at h
    | text s' t' i' v' =>
      simp only [RPart.same, Bool.and_eq_true, decide_eq_true_eq] at h
      obtain ⟨⟨⟨h1, rfl⟩, rfl⟩, rfl⟩ := h
      cases r with
      | br => rfl
      | text s'' t'' i'' v'' =>
        simp only [RPart.same]
        have : E.eqv s s'' = E.eqv s' s'' := by
          rw [Bool.eq_iff_iff]
          exact ⟨fun h => E.trans _ _ _ (E.symm _ _ h1) h, fun h => E.trans _ _ _ h1 h⟩
        rw [this]

theorem atomsOf_append (a b : List (RPart V)) : atomsOf (a ++ b) = atomsOf a ++ atomsOf b := by
  simp [atomsOf]

theorem removePart_spec (E : DictEq V) (p : RPart V) (hp : p.blank = true) (c : List (RPart V)) (h : 0 < cnt E c p) :
    ∃ c', removePart E p c = .ok c' ∧ atomsOf c' = atomsOf c ∧
      ∀ q, cnt E c' q + (if p.same E q then 1 else 0) = cnt E c q := by
  unfold cnt at h
  rw [List.countP_pos_iff] at h
  obtain ⟨x, hx, hxp⟩ := h
  have hany : c.any (fun q => q.same E p) = true := List.any_eq_true.mpr ⟨x, hx, hxp⟩
  refine ⟨c.eraseP fun q => q.same E p, by simp [removePart, hany], ?_, ?_⟩
  · obtain ⟨y, l1, l2, _, hy, hc, he⟩ := List.exists_of_eraseP (p := fun q => q.same E p) hx hxp
    rw [he, hc, atomsOf_append, atomsOf_append]
    have : y.blank = true := same_blank hy hp
    simp [atomsOf, this]
  · intro q
    obtain ⟨y, l1, l2, _, hy, hc, he⟩ := List.exists_of_eraseP (p := fun q => q.same E p) hx hxp
    rw [he, hc]
    simp only [cnt, List.countP_append, List.countP_cons]
    rw [same_cong hy]
    omega

/-- what is known in a call: the blank parts are those there were before, and the current part if it is
blank; `A` are the characters so far -/
structure RInv (E : DictEq V) (e : REnv V) (b : RPart V → Nat) (A : List (RAtom V)) (s : RSt V) : Prop where
  cnt : ∀ q, q.blank = true → cnt E s.content q = b q + (if s.text = [] then (if (e.part []).same E q then 1 else 0) else 0)
  last : s.isLast = true → ∃ c, s.content = c ++ [e.part s.text]
  atoms : atomsOf s.content = A

theorem part_blank (e : REnv V) : (e.part []).blank = true := rfl

theorem part_notBlank (e : REnv V) {t : Str} (h : t ≠ []) : (e.part t).blank = false := by
  cases t with
  | nil => exact absurd rfl h
  | cons a l => rfl

theorem not_same_of_text {E : DictEq V} (e : REnv V) {t : Str} (h : t ≠ []) {q : RPart V} (hq : q.blank = true) :
    (e.part t).same E q = false := by
  by_contra hc
  have := same_blank (by simpa using hc) hq
  rw [part_notBlank e h] at this
  cases this

theorem newPart_spec {E : DictEq V} {e : REnv V} {b : RPart V → Nat} {A : List (RAtom V)} {s : RSt V}
    (h : ∀ q, q.blank = true → cnt E s.content q = b q + (if s.text = [] then (if (e.part []).same E q then 1 else 0) else 0))
    (ha : atomsOf s.content = A) :
    ∃ s', newPart E e s = .ok s' ∧ RInv E e b A s' ∧ s'.text = [] ∧ ∃ c, s'.content = c ++ [e.part []] := by
  unfold newPart
  have h1 : ∃ c, (if s.text = [] then removePart E (e.part []) s.content else .ok s.content) = .ok c ∧ atomsOf c = A ∧
      ∀ q, q.blank = true → cnt E c q = b q := by
    by_cases ht : s.text = []
    · have hpos : 0 < cnt E s.content (e.part []) := by
        rw [h _ (part_blank e), if_pos ht, if_pos (same_refl E _)]; omega
      obtain ⟨c, hc, hat, hcnt⟩ := removePart_spec E (e.part []) (part_blank e) s.content hpos
      refine ⟨c, by rw [if_pos ht]; exact hc, by rw [hat, ha], ?_⟩
      intro q hq
      have h2 := h q hq
      have h3 := hcnt q
      rw [if_pos ht] at h2
      omega
    · refine ⟨s.content, by rw [if_neg ht], ha, ?_⟩
      intro q hq
      rw [h q hq, if_neg ht]; rfl
  obtain ⟨c, hc, hat, hcnt⟩ := h1
  rw [hc]
  refine ⟨_, rfl, ⟨?_, fun _ => ⟨c, rfl⟩, ?_⟩, rfl, c, rfl⟩
  · intro q hq
    simp only [cnt, List.countP_append, List.countP_cons, List.countP_nil, if_true]
    have := hcnt q hq
    simp only [cnt] at this
    rw [this]; omega
  · simp only [atomsOf_append, hat]
    simp [atomsOf, part_blank]

/-- the characters of a text -/
def strAtoms (f : Str → Option V) (ids : List Str) (s : Str) : List (RAtom V) :=
  s.map fun c => if c = '\n' then .newline else .ch c f ids

theorem addText_spec {E : DictEq V} {e : REnv V} {b : RPart V → Nat} {A : List (RAtom V)} {s : RSt V} (hv : e.var = none)
    (h : RInv E e b A s) (hl : ∃ c, s.content = c ++ [e.part s.text]) (t : Str) (hn : '\n' ∉ t) :
    RInv E e b (A ++ strAtoms (fun k => dget k e.style) e.ids t) (addText e t s) ∧
    ∃ c, (addText e t s).content = c ++ [e.part (addText e t s).text] := by
  obtain ⟨c, hc⟩ := hl
  have hc' : (addText e t s).content = c ++ [e.part (s.text ++ t)] := by
    simp [addText, hc]
  refine ⟨⟨?_, fun _ => ⟨c, hc'⟩, ?_⟩, c, hc'⟩
  · intro q hq
    have h1 := h.cnt q hq
    rw [hc] at h1
    rw [hc', show (addText e t s).text = s.text ++ t from rfl]
    simp only [cnt, List.countP_append, List.countP_cons, List.countP_nil] at h1 ⊢
    by_cases ht : s.text = []
    · simp only [ht, List.nil_append, if_true] at h1 ⊢
      by_cases ht' : t = []
      · rw [ht']; simp only [if_true]; exact h1
      · rw [not_same_of_text e ht' hq, if_neg ht']
        simp only [Bool.false_eq_true, if_false]
        omega
    · have hne : s.text ++ t ≠ [] := by simp [ht]
      rw [not_same_of_text e ht hq, if_neg ht] at h1
      rw [not_same_of_text e hne hq, if_neg hne]
      exact h1
  · have hp : ∀ x : Str, atomsOf [e.part x] = x.map fun c => .ch c (fun k => dget k e.style) e.ids := by
      intro x
      cases x with
      | nil => simp [atomsOf, REnv.part, RPart.blank]
      | cons a l => simp [atomsOf, REnv.part, RPart.blank, hv, partAtoms]
    rw [hc', atomsOf_append, hp]
    have h1 := h.atoms
    rw [hc, atomsOf_append, hp] at h1
    rw [List.map_append, ← List.append_assoc, h1]
    congr 1
    unfold strAtoms
    apply List.map_congr_left
    intro x hx
    have : x ≠ '\n' := fun hh => hn (hh ▸ hx)
    rw [if_neg this]

theorem splitOn_parts (sep : Char) (s : Str) : ∀ t ∈ splitOn sep s, sep ∉ t := by
  induction s with
  | nil => simp [splitOn]
  | cons c cs ih =>
    intro t ht
    simp only [splitOn] at ht
    by_cases hc : c = sep
    · rw [if_pos hc] at ht
      rcases List.mem_cons.mp ht with rfl | h
      · simp
      · exact ih t h
    · rw [if_neg hc] at ht
      cases hs : splitOn sep cs with
      | nil =>
        rw [hs] at ht
        simp only [List.mem_singleton] at ht
        rw [ht]; simp [Ne.symm hc]
      | cons a l =>
        rw [hs] at ht ih
        rcases List.mem_cons.mp ht with rfl | h
        · intro hm
          rcases List.mem_cons.mp hm with h1 | h1
          · exact hc h1.symm
          · exact ih a (by simp) h1
        · exact ih t (by simp [h])

/-- the characters of the lines of a text -/
theorem strAtoms_split (f : Str → Option V) (ids : List Str) (s t : Str) (l : List Str) (h : splitOn '\n' s = t :: l) :
    strAtoms f ids s = strAtoms f ids t ++ l.flatMap fun x => .newline :: strAtoms f ids x := by
  induction s generalizing t l with
  | nil => simp only [splitOn, List.cons.injEq] at h; rw [← h.1, ← h.2]; rfl
  | cons c cs ih =>
    simp only [splitOn] at h
    by_cases hc : c = '\n'
    · rw [if_pos hc] at h
      simp only [List.cons.injEq] at h
      obtain ⟨rfl, rfl⟩ := h
      cases hs : splitOn '\n' cs with
      | nil =>
        exfalso
        cases cs with
        | nil => simp [splitOn] at hs
        | cons a l =>
          simp only [splitOn] at hs
          split at hs
          · cases hs
          · split at hs <;> cases hs
      | cons a l =>
        rw [hc]
        simp only [List.flatMap_cons]
        have := ih a l hs
        simp only [strAtoms, List.map_cons, if_true, List.map_nil, List.nil_append] at this ⊢
        rw [this]
        rfl
    · rw [if_neg hc] at h
      cases hs : splitOn '\n' cs with
      | nil =>
        exfalso
        cases cs with
        | nil => simp [splitOn] at hs
        | cons a l =>
          simp only [splitOn] at hs
          split at hs
          · cases hs
          · split at hs <;> cases hs
      | cons a l' =>
        rw [hs] at h
        simp only [List.cons.injEq] at h
        obtain ⟨rfl, rfl⟩ := h
        have := ih a l' hs
        simp only [strAtoms, List.map_cons, if_neg hc, List.cons_append] at this ⊢
        rw [this]

theorem addLines_spec {E : DictEq V} {e : REnv V} {b : RPart V → Nat} (hv : e.var = none) : ∀ (l : List Str) (A : List (RAtom V)) (s : RSt V),
    RInv E e b A s → (∃ c, s.content = c ++ [e.part s.text]) → (∀ t ∈ l, '\n' ∉ t) →
    ∃ s', addLines E e l s = .ok s' ∧
      RInv E e b (A ++ l.flatMap fun x => .newline :: strAtoms (fun k => dget k e.style) e.ids x) s' ∧
      ∃ c, s'.content = c ++ [e.part s'.text] := by
  intro l
  induction l with
  | nil => intro A s h hl _; exact ⟨s, rfl, by simpa using h, hl⟩
  | cons t l ih =>
    intro A s h hl hn
    simp only [addLines]
    have h1 : ∀ q, q.blank = true → cnt E (s.content ++ [RPart.br]) q =
        b q + (if s.text = [] then (if (e.part []).same E q then 1 else 0) else 0) := by
      intro q hq
      rw [← h.cnt q hq]
      have : (RPart.br : RPart V).same E q = false := by
        cases q with
        | br => simp [RPart.blank] at hq
        | text => rfl
      simp [cnt, this]
    have h2 : atomsOf (s.content ++ [RPart.br]) = A ++ [.newline] := by
      rw [atomsOf_append, h.atoms]; simp [atomsOf, RPart.blank, partAtoms]
    obtain ⟨s1, hs1, hi1, ht1, c1, hc1⟩ := newPart_spec (s := { s with content := s.content ++ [RPart.br] }) h1 h2
    rw [hs1]
    obtain ⟨hi2, hl2⟩ := addText_spec hv hi1 ⟨c1, by rw [hc1, ht1]⟩ t (hn t (by simp))
    obtain ⟨s', hs', hi', hl'⟩ := ih _ _ hi2 hl2 (fun x hx => hn x (by simp [hx]))
    refine ⟨s', hs', ?_, hl'⟩
    simpa using hi'

theorem parseStr_spec {E : DictEq V} {e : REnv V} {b : RPart V → Nat} {A : List (RAtom V)} {s : RSt V} (hv : e.var = none)
    (h : RInv E e b A s) (x : Str) :
    ∃ s', parseStr E e x s = .ok s' ∧ RInv E e b (A ++ strAtoms (fun k => dget k e.style) e.ids x) s' := by
  unfold parseStr
  by_cases hx : x = []
  · rw [if_pos hx]
    exact ⟨s, rfl, by rw [hx]; simpa [strAtoms] using h⟩
  · rw [if_neg hx]
    have hns : splitOn '\n' x ≠ [] := by
      cases x with
      | nil => exact absurd rfl hx
      | cons a l =>
        simp only [splitOn]
        split
        · simp
        · split <;> simp
    cases hs : splitOn '\n' x with
    | nil => exact absurd hs hns
    | cons t l =>
      have hfree := splitOn_parts '\n' x
      rw [hs] at hfree
      have h1 : ∃ s1, (if s.isLast then Except.ok s else newPart E e s) = .ok s1 ∧ RInv E e b A s1 ∧ ∃ c, s1.content = c ++ [e.part s1.text] := by
        by_cases hl : s.isLast = true
        · rw [if_pos hl]; exact ⟨s, rfl, h, h.last hl⟩
        · rw [if_neg hl]
          obtain ⟨s1, hs1, hi1, ht1, c1, hc1⟩ := newPart_spec h.cnt h.atoms
          exact ⟨s1, hs1, hi1, c1, by rw [hc1, ht1]⟩
      obtain ⟨s1, hs1, hi1, hl1⟩ := h1
      obtain ⟨hi2, hl2⟩ := addText_spec hv hi1 hl1 t (hfree t (by simp))
      obtain ⟨s', hs', hi', hl'⟩ := addLines_spec hv l _ _ hi2 hl2 (fun y hy => hfree y (by simp [hy]))
      simp only [hs1]
      simp only [Bind.bind, Except.bind, hs']
      refine ⟨_, rfl, ⟨hi'.cnt, fun _ => hl', ?_⟩⟩
      rw [strAtoms_split _ _ x t l hs, ← List.append_assoc]
      exact hi'.atoms

theorem override_eq (d e : List (Str × V)) : (fun k => dget k (dupdate d e)) = override (fun k => dget k d) e := by
  induction e generalizing d with
  | nil => rfl
  | cons p e ih =>
    show (fun k => dget k (dupdate (dset p.1 p.2 d) e)) = _
    rw [ih]
    show override _ e = override _ e
    congr 1
    funext k
    rw [dget_dset]

theorem env_style (hd : RHead V) (p : List (Str × V)) (ids : List Str) :
    (fun k => dget k (hd.env p ids).style) = override (override (fun k => dget k p) hd.dot) hd.style := by
  simp only [RHead.env]
  rw [override_eq, override_eq]

theorem env_ids (hd : RHead V) (p : List (Str × V)) (ids : List Str) : (hd.env p ids).ids = ids ++ ownIds hd := by
  unfold RHead.env ownIds
  cases hd.label <;> cases hd.ref <;> cases hd.uri <;> cases hd.outline <;> simp

theorem endNode_spec {E : DictEq V} {e : REnv V} {b : RPart V → Nat} {A : List (RAtom V)} {s : RSt V} (h : RInv E e b A s) :
    ∃ c, endNode E e s = .ok c ∧ (∀ q, q.blank = true → cnt E c q = b q) ∧ atomsOf c = A := by
  unfold endNode
  by_cases ht : s.text = []
  · have hpos : 0 < cnt E s.content (e.part []) := by
      rw [h.cnt _ (part_blank e), if_pos ht, if_pos (same_refl E _)]; omega
    obtain ⟨c, hc, hat, hcnt⟩ := removePart_spec E (e.part []) (part_blank e) s.content hpos
    rw [if_pos ht]
    refine ⟨c, hc, ?_, by rw [hat, h.atoms]⟩
    intro q hq
    have h2 := h.cnt q hq
    have h3 := hcnt q
    rw [if_pos ht] at h2
    omega
  · rw [if_neg ht]
    refine ⟨_, rfl, ?_, h.atoms⟩
    intro q hq
    rw [h.cnt q hq, if_neg ht]; rfl

/-- a new dict begins -/
theorem startNode_inv (E : DictEq V) (e' : REnv V) (c : List (RPart V)) :
    RInv E e' (cnt E c) (atomsOf c) { text := [], isLast := false, content := c ++ [e'.part []] } := by
  refine ⟨?_, fun h => by simp at h, ?_⟩
  · intro q hq
    simp [cnt]
  · rw [atomsOf_append]
    simp [atomsOf, part_blank]

/-- the text of a dict with a variable -/
theorem parseVar_spec {E : DictEq V} (e' : REnv V) (v : Str) (hv : e'.var = some v) (c : List (RPart V)) :
    ∃ s', parseStr E e' ['0'] { text := [], isLast := false, content := c ++ [e'.part []] } = .ok s' ∧
      RInv E e' (cnt E c) (atomsOf c ++ [.var v (fun k => dget k e'.style) e'.ids]) s' := by
  have hi := startNode_inv E e' c
  obtain ⟨s1, hs1, hi1, ht1, c1, hc1⟩ := newPart_spec hi.cnt hi.atoms
  have hsp : splitOn '\n' ['0'] = [['0']] := by decide
  unfold parseStr
  rw [if_neg (by simp), hsp]
  simp only [Bool.false_eq_true, if_false, hs1, Bind.bind, Except.bind, addLines]
  refine ⟨_, rfl, ?_, ?_, ?_⟩
  · intro q hq
    have h1 := hi1.cnt q hq
    rw [hc1] at h1
    simp only [cnt, List.countP_append, List.countP_cons, List.countP_nil, addText, ht1, hc1, if_true, List.nil_append,
      List.dropLast_concat] at h1 ⊢
    rw [not_same_of_text e' (by simp) hq]
    have h2 : (if (['0'] : Str) = [] then (if (e'.part []).same E q then 1 else 0) else 0) = 0 := if_neg (by simp)
    rw [h2, if_neg (by simp)]
    omega
  · intro _
    exact ⟨c1, by simp [addText, hc1, ht1]⟩
  · simp only [addText, hc1, ht1, List.dropLast_concat, List.nil_append]
    have h1 := hi1.atoms
    rw [hc1, atomsOf_append] at h1
    rw [atomsOf_append]
    have h2 : atomsOf [e'.part []] = [] := by simp [atomsOf, part_blank]
    rw [h2, List.append_nil] at h1
    rw [h1]
    simp [atomsOf, REnv.part, RPart.blank, hv, partAtoms]

mutual
theorem parseContentElem_spec (E : DictEq V) : ∀ (x : RElem V) (e : REnv V), e.var = none → ∀ (b : RPart V → Nat) (A : List (RAtom V)) (s : RSt V), RInv E e b A s →
    (wellTyped x = true → ∃ s', parseContentElem E e x s = .ok s' ∧ RInv E e b (A ++ richAtoms (fun k => dget k e.style) e.ids x) s') ∧
    (wellTyped x = false → parseContentElem E e x s = .error .typeError)
  | .str t, e, hv, b, A, s, h => by
    refine ⟨fun _ => ?_, fun hw => by simp [wellTyped] at hw⟩
    simp only [parseContentElem, richAtoms]
    exact parseStr_spec hv h t
  | .bad, e, hv, b, A, s, h => by
    refine ⟨fun hw => by simp [wellTyped] at hw, fun _ => by simp [parseContentElem]⟩
  | .node hd elems, e, hv, b, A, s, h => by
    have hstart := startNode_inv E (hd.env e.style e.ids) s.content
    have hdone : ∀ (B : List (RAtom V)) (s1 : RSt V), RInv E (hd.env e.style e.ids) (cnt E s.content) (atomsOf s.content ++ B) s1 →
        ∃ s', (do let c ← endNode E (hd.env e.style e.ids) s1; Except.ok { s with content := c, isLast := false } : Except PyErr (RSt V)) = .ok s' ∧
          RInv E e b (A ++ B) s' := by
      intro B s1 h1
      obtain ⟨c, hc, hcnt, hat⟩ := endNode_spec h1
      rw [hc]
      refine ⟨_, rfl, ?_, fun h => by simp at h, ?_⟩
      · intro q hq
        simp only []
        rw [hcnt q hq]
        exact h.cnt q hq
      · simp only []
        rw [hat, h.atoms]
    cases hvar : hd.var with
    | some v =>
      refine ⟨fun _ => ?_, fun hw => by simp [wellTyped, hvar] at hw⟩
      simp only [hvar, parseContentElem, richAtoms]
      obtain ⟨s1, hs1, hi1⟩ := parseVar_spec (E := E) (hd.env e.style e.ids) v hvar s.content
      rw [hs1]
      have := hdone _ s1 hi1
      rw [env_style, env_ids] at this
      exact this
    | none =>
      have hrec := parseContent_spec E elems (hd.env e.style e.ids) hvar _ _ _ hstart
      constructor
      · intro hw
        have hw : wellTypedL elems = true := by simpa [wellTyped, hvar] using hw
        simp only [hvar, parseContentElem, richAtoms]
        obtain ⟨s1, hs1, hi1⟩ := hrec.1 hw
        rw [hs1]
        have := hdone _ s1 hi1
        rw [env_style, env_ids] at this
        exact this
      · intro hw
        have hw : wellTypedL elems = false := by simpa [wellTyped, hvar] using hw
        simp only [hvar, parseContentElem]
        rw [hrec.2 hw]
        rfl
theorem parseContent_spec (E : DictEq V) : ∀ (l : List (RElem V)) (e : REnv V), e.var = none → ∀ (b : RPart V → Nat) (A : List (RAtom V)) (s : RSt V), RInv E e b A s →
    (wellTypedL l = true → ∃ s', parseContent E e l s = .ok s' ∧ RInv E e b (A ++ richAtomsL (fun k => dget k e.style) e.ids l) s') ∧
    (wellTypedL l = false → parseContent E e l s = .error .typeError)
  | [], e, hv, b, A, s, h => by
    refine ⟨fun _ => ⟨s, by simp [parseContent], by simpa [richAtomsL] using h⟩, fun hw => by simp [wellTypedL] at hw⟩
  | x :: l, e, hv, b, A, s, h => by
    have h1 := parseContentElem_spec E x e hv b A s h
    simp only [parseContent, richAtomsL]
    cases hx : wellTyped x with
    | true =>
      obtain ⟨s1, hs1, hi1⟩ := h1.1 hx
      rw [hs1]
      have h2 := parseContent_spec E l e hv b _ s1 hi1
      rw [← List.append_assoc]
      exact ⟨fun hw => h2.1 (by simpa [wellTypedL, hx] using hw), fun hw => h2.2 (by simpa [wellTypedL, hx] using hw)⟩
    | false =>
      rw [h1.2 hx]
      exact ⟨fun hw => by simp [wellTypedL, hx] at hw, fun _ => rfl⟩
end

/-- **C25.** The flat content of a nested content: its characters in order, one line break for every newline
character, every character with the style that overrides the defaults with the styles of the dicts around it
from the outside to the inside, and with the ids of all of them; no part is empty. An object of a wrong type is
rejected with `TypeError`. -/
theorem C25_rich_text (E : DictEq V) (defaults : List (Str × V)) (hd : RHead V) (elems : List (RElem V)) :
    (wellTyped (.node hd elems) = true →
      ∃ parts, richParse E defaults hd elems = .ok parts ∧ (∀ p ∈ parts, p.blank = false) ∧
        parts.flatMap partAtoms = richAtoms (fun k => dget k defaults) [] (.node hd elems)) ∧
    (wellTyped (.node hd elems) = false → richParse E defaults hd elems = .error .typeError) := by
  have h0 : RInv E ⟨defaults, [], none⟩ (fun q => cnt E [] q) [] ({ text := ['0'], isLast := false, content := [] } : RSt V) :=
    ⟨fun q _ => by simp, fun h => by simp at h, rfl⟩
  have h := parseContentElem_spec E (.node hd elems) ⟨defaults, [], none⟩ rfl _ _ _ h0
  have ht : ∀ t : Str, parseContentElem E ⟨defaults, [], none⟩ (.node hd elems) ({ text := t, isLast := false, content := [] } : RSt V) =
      (parseContentElem E ⟨defaults, [], none⟩ (.node hd elems) ({ text := [], isLast := false, content := [] } : RSt V)).map
        fun s => { s with text := t } := by
    intro t
    simp only [parseContentElem, List.nil_append]
    have key : ∀ r : Except PyErr (RSt V), (r >>= fun s1 => do
        let c ← endNode E (hd.env defaults []) s1
        Except.ok ({ text := t, isLast := false, content := c } : RSt V)) =
        (r >>= fun s1 => do
          let c ← endNode E (hd.env defaults []) s1
          Except.ok ({ text := [], isLast := false, content := c } : RSt V)).map fun s => { s with text := t } := by
      intro r
      cases r with
      | error => rfl
      | ok s1 =>
        simp only [Bind.bind, Except.bind]
        cases endNode E (hd.env defaults []) s1 <;> rfl
    exact key _
  rw [ht] at h
  unfold richParse
  refine ⟨fun hw => ?_, fun hw => ?_⟩
  · obtain ⟨s', hs', hi⟩ := h.1 hw
    cases hr : parseContentElem E ⟨defaults, [], none⟩ (.node hd elems) ({ text := [], isLast := false, content := [] } : RSt V) with
    | error x => rw [hr] at hs'; cases hs'
    | ok s =>
      rw [hr] at hs'
      simp only [Except.map, Except.ok.injEq] at hs'
      have hb : ∀ p ∈ s.content, p.blank = false := by
        intro p hp
        by_contra hc
        have hc : p.blank = true := by simpa using hc
        have h1 := hi.cnt p hc
        have h2 : (s'.text = []) = False := by rw [← hs']; simp
        have h3 : s'.content = s.content := by rw [← hs']
        simp only [h2, if_false, h3] at h1
        simp only [cnt, List.countP_nil] at h1
        rw [Nat.add_zero, List.countP_eq_zero] at h1
        exact h1 p hp (same_refl E p)
      refine ⟨s.content, rfl, hb, ?_⟩
      have h4 := hi.atoms
      have h3 : s'.content = s.content := by rw [← hs']
      rw [h3, atomsOf, List.filter_eq_self.mpr (fun p hp => by simp [hb p hp])] at h4
      simpa using h4
  · have h := h.2 hw
    cases hr : parseContentElem E ⟨defaults, [], none⟩ (.node hd elems) ({ text := [], isLast := false, content := [] } : RSt V) with
    | error x =>
      rw [hr] at h
      simp only [Except.map, Except.error.injEq] at h
      rw [h]; rfl
    | ok s => rw [hr] at h; cases h

section Example
private def ex25E : DictEq Nat := ⟨fun a b => decide (a = b), by simp, by simp, by simp⟩
private def ex25Hd (d : List (Str × Nat)) (ids : List Str) (label : Option Str) : RHead Nat := ⟨d, [], none, ids, label, none, none, none⟩

-- the nested dict comes first and has the same style and ids as its parent: `remove` takes the other part
example : (richParse ex25E [(c!"s", 11)] (ex25Hd [(c!"b", 1)] [c!"x"] none)
    [.node (ex25Hd [] [] none) [.str c!"a\n"], .str c!"", .str c!"b", .str c!"c\n\nd", .node (ex25Hd [(c!"s", 9)] [] (some c!"L")) [.str c!"e"]]) =
    .ok [.text [(c!"s", 11), (c!"b", 1)] c!"a" [c!"x"] none, .br, .text [(c!"s", 11), (c!"b", 1)] c!"bc" [c!"x"] none, .br, .br,
      .text [(c!"s", 11), (c!"b", 1)] c!"d" [c!"x"] none,
      .text [(c!"s", 9), (c!"b", 1)] c!"e" [c!"x", c!"$label:L"] none] := by
  decide +kernel

example : wellTyped (.node (ex25Hd [] [] none) [.str c!"a", .bad]) = false := by decide +kernel
end Example

end Verif
