import Verif.Model.Copy
/-! C54: copies are equal and independent. -/
namespace Verif
open Spec.Heap

theorem getElem?_app {α : Type} {h e : List α} {a : Nat} {c : α} (ha : h[a]? = some c) :
    (h ++ e)[a]? = some c := by
  rw [List.getElem?_append_left (List.getElem?_eq_some_iff.1 ha).1, ha]

mutual
theorem looks_ext {h : Heap} (e : Heap) : ∀ {v t}, Looks h v t → Looks (h ++ e) v t
  | _, _, .atom a => .atom a
  | _, _, .node hc hl => .node (getElem?_app hc) (looksAll_ext e hl)
theorem looksAll_ext {h : Heap} (e : Heap) : ∀ {vs ts}, LooksAll h vs ts → LooksAll (h ++ e) vs ts
  | _, _, .nil => .nil
  | _, _, .cons h1 h2 => .cons (looks_ext e h1) (looksAll_ext e h2)
end

/-- `v` is an atom or points into `[lo, hi)` -/
def InRange (lo hi : Nat) : Val → Prop
  | .atom _ => True
  | .ref a => lo ≤ a ∧ a < hi

/-- the cells in `[lo, hi)` exist and only point into `[lo, hi)` -/
def Region (h : Heap) (lo hi : Nat) : Prop :=
  ∀ a, lo ≤ a → a < hi → ∃ c, h[a]? = some c ∧ ∀ v ∈ c.vals, InRange lo hi v

theorem InRange.mono {lo hi lo' hi' : Nat} (h1 : lo' ≤ lo) (h2 : hi ≤ hi') {v : Val} (h : InRange lo hi v) :
    InRange lo' hi' v := by
  cases v with
  | atom => trivial
  | ref a => exact ⟨Nat.le_trans h1 h.1, Nat.lt_of_lt_of_le h.2 h2⟩

theorem Region.ext {h : Heap} {lo hi : Nat} (hr : Region h lo hi) (e : Heap) : Region (h ++ e) lo hi := by
  intro a h1 h2
  obtain ⟨c, hc, hv⟩ := hr a h1 h2
  exact ⟨c, getElem?_app hc, hv⟩

theorem Region.union {h : Heap} {lo mid hi : Nat} (h1 : Region h lo mid) (h2 : Region h mid hi)
    (hl : lo ≤ mid) (hh : mid ≤ hi) : Region h lo hi := by
  intro a ha hb
  by_cases hm : a < mid
  · obtain ⟨c, hc, hv⟩ := h1 a ha hm
    exact ⟨c, hc, fun v hv' => (hv v hv').mono (Nat.le_refl _) hh⟩
  · obtain ⟨c, hc, hv⟩ := h2 a (by omega) hb
    exact ⟨c, hc, fun v hv' => (hv v hv').mono hl (Nat.le_refl _)⟩

theorem Region.snoc {h : Heap} {lo : Nat} (hr : Region h lo h.length) (_ : lo ≤ h.length) {c : Cell}
    (hc : ∀ v ∈ c.vals, InRange lo h.length v) : Region (h ++ [c]) lo (h ++ [c]).length := by
  intro a h1 h2
  simp only [List.length_append, List.length_cons, List.length_nil] at h2 ⊢
  by_cases ha : a < h.length
  · obtain ⟨c', hc', hv⟩ := hr a h1 ha
    exact ⟨c', getElem?_app hc', fun v hv' => (hv v hv').mono (Nat.le_refl _) (by omega)⟩
  · have : a = h.length := by omega
    subst this
    exact ⟨c, by simp, fun v hv' => (hc v hv').mono (Nat.le_refl _) (by omega)⟩

theorem reach_inRange {h : Heap} {lo hi : Nat} (hr : Region h lo hi) {v : Val} {a : Nat} (h1 : Reach h v a) :
    InRange lo hi v → lo ≤ a ∧ a < hi := by
  induction h1 with
  | here a => exact id
  | there hc hv _ ih =>
    intro hin
    obtain ⟨c, hc', hvs⟩ := hr _ hin.1 hin.2
    rw [hc] at hc'
    cases hc'
    exact ih (hvs _ hv)

/-- a finished copy -/
def CopyOk (n : Nat) (h : Heap) (v : Val) (t : Tree) : Prop :=
  ∀ e : Heap, ∃ e' v', copyVal n (h ++ e) v = some ((h ++ e) ++ e', v') ∧ Looks ((h ++ e) ++ e') v' t ∧
    (Plain t → InRange (h ++ e).length ((h ++ e) ++ e').length v' ∧
      Region ((h ++ e) ++ e') (h ++ e).length ((h ++ e) ++ e').length)

def CopyAllOk (n : Nat) (h : Heap) (vs : List Val) (ts : List Tree) : Prop :=
  ∀ e : Heap, ∃ e' vs', copyAll (copyVal n) (h ++ e) vs = some ((h ++ e) ++ e', vs') ∧
    LooksAll ((h ++ e) ++ e') vs' ts ∧
    ((∀ t ∈ ts, Plain t) → (∀ v ∈ vs', InRange (h ++ e).length ((h ++ e) ++ e').length v) ∧
      Region ((h ++ e) ++ e') (h ++ e).length ((h ++ e) ++ e').length)

mutual
theorem copy_ok {h : Heap} : ∀ {v t}, Looks h v t → ∃ N, ∀ n, N ≤ n → CopyOk n h v t
  | _, _, .atom a => by
    refine ⟨1, fun n hn e => ⟨[], .atom a, ?_, .atom a, fun _ => ⟨trivial, ?_⟩⟩⟩
    · obtain ⟨m, rfl⟩ : ∃ m, n = m + 1 := ⟨n - 1, by omega⟩
      simp [copyVal]
    · intro a h1 h2; simp at h1 h2; omega
  | _, _, .node (a := a) (c := c) (ts := ts) hc hl => by
    obtain ⟨N, hN⟩ := copyAll_ok hl
    refine ⟨N + 1, fun n hn e => ?_⟩
    obtain ⟨m, rfl⟩ : ∃ m, n = m + 1 := ⟨n - 1, by omega⟩
    have hc' : (h ++ e)[a]? = some c := getElem?_app hc
    by_cases hk : c.kind = .tuple
    · refine ⟨[], .ref a, ?_, ?_, ?_⟩
      · simp only [copyVal, hc', hk, List.append_nil]
      · exact looks_ext [] (looks_ext e (Looks.node hc hl))
      · intro hp
        cases hp with
        | node hk' _ => exact absurd hk hk'
    · obtain ⟨e1, vs, h1, h2, h3⟩ := hN m (by omega) e
      refine ⟨e1 ++ [⟨c.kind, c.keys, vs⟩], .ref ((h ++ e) ++ e1).length, ?_, ?_, ?_⟩
      · have : copyVal (m + 1) (h ++ e) (.ref a) = some (((h ++ e) ++ e1) ++ [⟨c.kind, c.keys, vs⟩],
            .ref ((h ++ e) ++ e1).length) := by
          simp only [copyVal, hc']
          cases hk2 : c.kind with
          | tuple => exact absurd hk2 hk
          | list => simp only [h1]
          | dict => simp only [h1]
        rw [this, List.append_assoc (h ++ e)]
      · rw [← List.append_assoc (h ++ e)]
        refine Looks.node (c := ⟨c.kind, c.keys, vs⟩) ?_ (looksAll_ext _ h2)
        simp
      · intro hp
        cases hp with
        | node _ hps =>
          obtain ⟨g1, g2⟩ := h3 hps
          rw [← List.append_assoc (h ++ e)]
          refine ⟨⟨by simp only [List.length_append]; omega, by simp only [List.length_append, List.length_cons, List.length_nil]; omega⟩, ?_⟩
          exact g2.snoc (by simp only [List.length_append]; omega) g1
theorem copyAll_ok {h : Heap} : ∀ {vs ts}, LooksAll h vs ts → ∃ N, ∀ n, N ≤ n → CopyAllOk n h vs ts
  | _, _, .nil => by
    refine ⟨0, fun n _ e => ⟨[], [], by simp [copyAll], .nil, fun _ => ⟨by simp, ?_⟩⟩⟩
    intro a h1 h2; simp at h1 h2; omega
  | _, _, .cons h1 h2 => by
    obtain ⟨N1, hN1⟩ := copy_ok h1
    obtain ⟨N2, hN2⟩ := copyAll_ok h2
    refine ⟨max N1 N2, fun n hn e => ?_⟩
    obtain ⟨e1, v1, a1, a2, a3⟩ := hN1 n (by omega) e
    obtain ⟨e2, vs2, b1, b2, b3⟩ := hN2 n (by omega) (e ++ e1)
    rw [← List.append_assoc] at b1 b2 b3
    refine ⟨e1 ++ e2, v1 :: vs2, ?_, ?_, ?_⟩
    · simp only [copyAll, a1, b1]
      rw [List.append_assoc (h ++ e)]
    · rw [← List.append_assoc (h ++ e)]
      exact .cons (looks_ext _ a2) b2
    · intro hp
      obtain ⟨p1, p2⟩ := a3 (hp _ (by simp))
      obtain ⟨q1, q2⟩ := b3 fun t ht => hp t (by simp [ht])
      rw [← List.append_assoc (h ++ e)]
      refine ⟨?_, (p2.ext e2).union q2 (by simp only [List.length_append]; omega) (by simp only [List.length_append]; omega)⟩
      intro v hv
      rcases List.mem_cons.1 hv with rfl | hv
      · exact p1.mono (Nat.le_refl _) (by simp only [List.length_append]; omega)
      · exact (q1 v hv).mono (by simp only [List.length_append]; omega) (Nat.le_refl _)
end

mutual
/-- every container reachable from a value with a finite tree exists -/
theorem looks_reach {h : Heap} : ∀ {v t}, Looks h v t → ∀ a, Reach h v a → a < h.length
  | _, _, .atom _ => by intro a ha; cases ha
  | _, _, .node hc hl => by
    intro a ha
    cases ha with
    | here => exact (List.getElem?_eq_some_iff.1 hc).1
    | there hc' hv hr =>
      rw [hc] at hc'
      cases hc'
      exact looksAll_reach hl _ hv a hr
theorem looksAll_reach {h : Heap} : ∀ {vs ts}, LooksAll h vs ts → ∀ v ∈ vs, ∀ a, Reach h v a → a < h.length
  | _, _, .nil => by simp
  | _, _, .cons h1 h2 => by
    intro v hv a ha
    rcases List.mem_cons.1 hv with rfl | hv
    · exact looks_reach h1 a ha
    · exact looksAll_reach h2 v hv a ha
end

mutual
/-- a value looks the same in every heap that agrees on what it reaches -/
theorem looks_congr {h h' : Heap} : ∀ {v t}, Looks h v t → (∀ a, Reach h v a → h'[a]? = h[a]?) → Looks h' v t
  | _, _, .atom a => fun _ => .atom a
  | _, _, .node hc hl => fun hag => .node ((hag _ (.here _)).trans hc)
      (looksAll_congr hl fun _ hv a ha => hag a (.there hc hv ha))
theorem looksAll_congr {h h' : Heap} : ∀ {vs ts}, LooksAll h vs ts →
    (∀ w ∈ vs, ∀ a, Reach h w a → h'[a]? = h[a]?) → LooksAll h' vs ts
  | _, _, .nil => fun _ => .nil
  | _, _, .cons h1 h2 => fun hag => .cons (looks_congr h1 (hag _ (by simp)))
      (looksAll_congr h2 fun v hv => hag v (by simp [hv]))
end

/-- reachability in a bigger heap stays inside for a value with a finite tree -/
theorem reach_ext {h e : Heap} {v : Val} {t : Tree} (hv : Looks h v t) {a : Nat} (hr : Reach (h ++ e) v a) :
    Reach h v a := by
  induction hr generalizing t with
  | here a => exact .here a
  | there hc hm _ ih =>
    cases hv with
    | node hc' hl =>
      rw [getElem?_app hc'] at hc
      cases hc
      have : ∀ {vs ts}, LooksAll h vs ts → ∀ v ∈ vs, ∃ t, Looks h v t := by
        intro vs
        induction vs with
        | nil => intro ts _ v hv; cases hv
        | cons w vs ihv =>
          intro ts hl v hv
          cases hl with
          | cons h1 h2 =>
            rcases List.mem_cons.1 hv with rfl | hv
            · exact ⟨_, h1⟩
            · exact ihv h2 v hv
      obtain ⟨t', ht'⟩ := this hl _ hm
      exact .there hc' hm (ih ht')

/-- edits change only containers that could be reached, or new ones -/
theorem edits_frame {h h' : Heap} {A : Nat → Prop} (he : Edits h A h') (hA : ∀ a, A a → a < h.length) :
    ∀ a, a < h.length → ¬ A a → h'[a]? = h[a]? := by
  induction he with
  | done => intros; rfl
  | @write h A h' b c hb _ _ ih =>
    intro a ha hna
    rw [ih (by simpa using hA) a (by simpa using ha) hna, List.getElem?_set_ne]
    rintro rfl
    exact hna hb
  | @alloc h A h' c _ _ ih =>
    intro a ha hna
    rw [ih ?_ a (by simp; omega) ?_, List.getElem?_append_left ha]
    · intro x hx
      simp only [List.length_append, List.length_cons, List.length_nil]
      rcases hx with hx | rfl
      · have := hA x hx; omega
      · omega
    · rintro (h1 | h1)
      · exact hna h1
      · omega

theorem copyAll_mono {f g : Heap → Val → Option (Heap × Val)}
    (hfg : ∀ h v r, f h v = some r → g h v = some r) : ∀ (vs : List Val) (h : Heap) (r), copyAll f h vs = some r →
      copyAll g h vs = some r := by
  intro vs
  induction vs with
  | nil => intro h r hr; exact hr
  | cons v vs ih =>
    intro h r hr
    simp only [copyAll] at hr ⊢
    cases h1 : f h v with
    | none => rw [h1] at hr; cases hr
    | some p =>
      rw [h1] at hr
      rw [hfg _ _ _ h1]
      simp only at hr ⊢
      cases h2 : copyAll f p.1 vs with
      | none => rw [h2] at hr; cases hr
      | some q => rw [h2] at hr; rw [ih _ _ h2]; exact hr

theorem copyVal_succ : ∀ (n : Nat) (h : Heap) (v : Val) (r), copyVal n h v = some r →
    copyVal (n + 1) h v = some r := by
  intro n
  induction n with
  | zero => intro h v r hr; cases hr
  | succ n ih =>
    intro h v r hr
    cases v with
    | atom a => exact hr
    | ref a =>
      rw [copyVal] at hr ⊢
      cases hc : h[a]? with
      | none => rw [hc] at hr; cases hr
      | some c =>
        rw [hc] at hr
        simp only at hr ⊢
        cases hk : c.kind with
        | tuple => rw [hk] at hr; exact hr
        | list =>
          rw [hk] at hr
          simp only at hr ⊢
          cases h2 : copyAll (copyVal n) h c.vals with
          | none => rw [h2] at hr; cases hr
          | some q => rw [h2] at hr; rw [copyAll_mono ih _ _ _ h2]; exact hr
        | dict =>
          rw [hk] at hr
          simp only at hr ⊢
          cases h2 : copyAll (copyVal n) h c.vals with
          | none => rw [h2] at hr; cases hr
          | some q => rw [h2] at hr; rw [copyAll_mono ih _ _ _ h2]; exact hr

theorem copyVal_mono {n m : Nat} (hnm : n ≤ m) {h : Heap} {v : Val} {r} (hr : copyVal n h v = some r) :
    copyVal m h v = some r := by
  induction hnm with
  | refl => exact hr
  | step _ ih => exact copyVal_succ _ _ _ _ ih

/-- C54: `copy` of any finite nested structure finishes, the copy is equal to the original, the original
is unchanged; this includes structures with other objects inside. -/
theorem C54_copy_equal (h : Heap) (v : Val) (t : Tree) (hv : Looks h v t) :
    ∃ N h' v', (∀ n, N ≤ n → copyVal n h v = some (h', v')) ∧ Looks h' v' t ∧ Looks h' v t ∧
      ∀ a < h.length, h'[a]? = h[a]? := by
  obtain ⟨N, hN⟩ := copy_ok hv
  obtain ⟨e', v', h1, h2, _⟩ := hN N (Nat.le_refl _) []
  simp only [List.append_nil] at h1 h2
  refine ⟨N, h ++ e', v', ?_, h2, looks_ext _ hv, fun a ha => List.getElem?_append_left ha⟩
  intro n hn
  exact copyVal_mono hn h1

/-- C54: for structures of lists and dicts, the copy shares no container with the original; whatever a
program that only knows the original does, the copy keeps its value, and the other way round. Missing:
containers inside other objects (tuples, …) are shared, see `C54_tuple_shared_false`. -/
theorem C54_copy_independent_partial (h : Heap) (v : Val) (t : Tree) (hv : Looks h v t) (hp : Plain t) (n : Nat)
    (h' : Heap) (v' : Val) (hc : copyVal n h v = some (h', v')) :
    (∀ a, Reach h' v a → Reach h' v' a → False) ∧
    (∀ h'', Edits h' (Reach h' v) h'' → Looks h'' v' t) ∧
    (∀ h'', Edits h' (Reach h' v') h'' → Looks h'' v t) := by
  obtain ⟨N, hN⟩ := copy_ok hv
  obtain ⟨e', v2, h1, h2, h3⟩ := hN N (Nat.le_refl _) []
  simp only [List.append_nil] at h1 h2 h3
  have heq : h' = h ++ e' ∧ v' = v2 := by
    have a1 := copyVal_mono (Nat.le_max_left n N) hc
    have a2 := copyVal_mono (Nat.le_max_right n N) h1
    rw [a1] at a2
    cases a2
    exact ⟨rfl, rfl⟩
  obtain ⟨rfl, rfl⟩ := heq
  obtain ⟨h4, h5⟩ := h3 hp
  have orig : ∀ a, Reach (h ++ e') v a → a < h.length := fun a ha => looks_reach hv a (reach_ext hv ha)
  have new : ∀ a, Reach (h ++ e') v' a → h.length ≤ a ∧ a < (h ++ e').length :=
    fun a ha => reach_inRange h5 ha h4
  refine ⟨fun a ha hb => ?_, fun h'' he => ?_, fun h'' he => ?_⟩
  · have := orig a ha
    have := new a hb
    omega
  · refine looks_congr h2 fun a ha => edits_frame he (fun b hb => ?_) a (new a ha).2 fun hb => ?_
    · have := orig b hb
      simp only [List.length_append]; omega
    · have := orig a hb
      have := new a ha
      omega
  · refine looks_congr (looks_ext e' hv) fun a ha => edits_frame he (fun b hb => (new b hb).2) a ?_ fun hb => ?_
    · have := orig a ha
      simp only [List.length_append]; omega
    · have := orig a ha
      have := new a hb
      omega

theorem looks_ref {h : Heap} {a : Nat} {t : Tree} (hl : Looks h (.ref a) t) :
    ∃ c ts, h[a]? = some c ∧ LooksAll h c.vals ts ∧ t = .node c.kind c.keys ts := by
  cases hl with
  | node hc hl => exact ⟨_, _, hc, hl, rfl⟩

theorem looksAll_head {h : Heap} {v vs t ts} (hl : LooksAll h (v :: vs) (t :: ts)) : Looks h v t := by
  cases hl with
  | cons h1 _ => exact h1

/-- the heap of `x = {'a': (['1'],)}` (address 2 is `x`) -/
def tupleHeap : Heap :=
  [⟨.list, [], [.atom c!"1"]⟩, ⟨.tuple, [], [.ref 0]⟩, ⟨.dict, [c!"a"], [.ref 1]⟩]

/-- C54 fails when a list is inside a tuple: the copy shares it, and a change made through the original
is seen through the copy. -/
theorem C54_tuple_shared_false :
    ∃ h' v' h'' t, copyVal 5 tupleHeap (.ref 2) = some (h', v') ∧ Looks h' v' t ∧ Reach h' (.ref 2) 0 ∧ Reach h' v' 0 ∧
      Edits h' (Reach h' (.ref 2)) h'' ∧ ¬ Looks h'' v' t := by
  have r1 : Reach (tupleHeap ++ [⟨.dict, [c!"a"], [.ref 1]⟩]) (.ref 2) 0 :=
    .there (c := ⟨.dict, [c!"a"], [.ref 1]⟩) (v := .ref 1) rfl (by simp)
      (.there (c := ⟨.tuple, [], [.ref 0]⟩) (v := .ref 0) rfl (by simp) (.here 0))
  have r2 : Reach (tupleHeap ++ [⟨.dict, [c!"a"], [.ref 1]⟩]) (.ref 3) 0 :=
    .there (c := ⟨.dict, [c!"a"], [.ref 1]⟩) (v := .ref 1) rfl (by simp)
      (.there (c := ⟨.tuple, [], [.ref 0]⟩) (v := .ref 0) rfl (by simp) (.here 0))
  refine ⟨tupleHeap ++ [⟨.dict, [c!"a"], [.ref 1]⟩], .ref 3, _,
    .node .dict [c!"a"] [.node .tuple [] [.node .list [] [.atom c!"1"]]], by decide +kernel, ?_, r1, r2,
    .write (c := ⟨.list, [], [.atom c!"2"]⟩) r1 (by simp) (.done _ _), ?_⟩
  · exact .node (c := ⟨.dict, [c!"a"], [.ref 1]⟩) rfl (.cons (.node (c := ⟨.tuple, [], [.ref 0]⟩) rfl
      (.cons (.node (c := ⟨.list, [], [.atom c!"1"]⟩) rfl (.cons (.atom _) .nil)) .nil)) .nil)
  · intro hl
    obtain ⟨c, ts, hc, hl, e⟩ := looks_ref hl
    cases hc
    cases e
    obtain ⟨c, ts, hc, hl, e⟩ := looks_ref (looksAll_head hl)
    cases hc
    cases e
    obtain ⟨c, ts, hc, hl, e⟩ := looks_ref (looksAll_head hl)
    cases hc
    cases e
    cases looksAll_head hl

/-- `x = {'a': ['1'], 'b': ['1']}` with one shared list: the copy has two lists -/
example : copyVal 5 [⟨.list, [], [.atom c!"1"]⟩, ⟨.dict, [c!"a", c!"b"], [.ref 0, .ref 0]⟩] (.ref 1) =
    some ([⟨.list, [], [.atom c!"1"]⟩, ⟨.dict, [c!"a", c!"b"], [.ref 0, .ref 0]⟩,
      ⟨.list, [], [.atom c!"1"]⟩, ⟨.list, [], [.atom c!"1"]⟩, ⟨.dict, [c!"a", c!"b"], [.ref 2, .ref 3]⟩], .ref 4) := by
  decide +kernel
example : Looks [⟨.list, [], [.atom c!"1"]⟩, ⟨.dict, [c!"a", c!"b"], [.ref 0, .ref 0]⟩] (.ref 1)
    (.node .dict [c!"a", c!"b"] [.node .list [] [.atom c!"1"], .node .list [] [.atom c!"1"]]) :=
  .node (c := ⟨.dict, [c!"a", c!"b"], [.ref 0, .ref 0]⟩) rfl
    (.cons (.node (c := ⟨.list, [], [.atom c!"1"]⟩) rfl (.cons (.atom _) .nil))
      (.cons (.node (c := ⟨.list, [], [.atom c!"1"]⟩) rfl (.cons (.atom _) .nil)) .nil))
example : Plain (.node .dict [c!"a"] [.node .list [] [.atom c!"1"]]) :=
  .node (by decide) (by
    intro t ht; simp only [List.mem_singleton] at ht; subst ht
    exact .node (by decide) (by intro t ht; simp only [List.mem_singleton] at ht; subst ht; exact .atom _))

end Verif
