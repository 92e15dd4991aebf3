import Verif.Lemmas.NameTree
/-! C45: every label is found through the name tree. -/
namespace Verif
open Spec

/-! ### the order of keys -/

theorem strLe_refl : ∀ a : Str, strLe a a = true
  | [] => rfl
  | _ :: as => by simp [strLe, strLe_refl as]

theorem strLe_total : ∀ a b : Str, strLe a b = true ∨ strLe b a = true
  | [], _ => .inl rfl
  | _ :: _, [] => .inr rfl
  | a :: as, b :: bs => by
    simp only [strLe]
    by_cases h : a.toNat = b.toNat
    · simp only [h, if_true]
      exact strLe_total as bs
    · rw [if_neg h, if_neg (Ne.symm h)]
      simp only [decide_eq_true_eq]
      omega

theorem strLe_trans : ∀ a b c : Str, strLe a b = true → strLe b c = true → strLe a c = true
  | [], _, _ => fun _ _ => rfl
  | _ :: _, [], _ => fun h _ => by simp [strLe] at h
  | _ :: _, _ :: _, [] => fun _ h => by simp [strLe] at h
  | a :: as, b :: bs, c :: cs => by
    simp only [strLe]
    intro h1 h2
    by_cases e1 : a.toNat = b.toNat
    · rw [if_pos e1] at h1
      by_cases e2 : b.toNat = c.toNat
      · rw [if_pos e2] at h2
        rw [if_pos (e1.trans e2)]
        exact strLe_trans as bs cs h1 h2
      · rw [if_neg e2] at h2
        rw [e1, if_neg e2]
        exact h2
    · rw [if_neg e1] at h1
      simp only [decide_eq_true_eq] at h1
      by_cases e2 : b.toNat = c.toNat
      · rw [← e2, if_neg e1]; simpa using h1
      · rw [if_neg e2] at h2
        simp only [decide_eq_true_eq] at h2
        rw [if_neg (by omega)]
        simp only [decide_eq_true_eq]
        omega

theorem strLe_antisymm : ∀ a b : Str, strLe a b = true → strLe b a = true → a = b
  | [], [] => fun _ _ => rfl
  | [], _ :: _ => fun _ h => by simp [strLe] at h
  | _ :: _, [] => fun h _ => by simp [strLe] at h
  | a :: as, b :: bs => by
    simp only [strLe]
    intro h1 h2
    by_cases e : a.toNat = b.toNat
    · rw [if_pos e] at h1
      rw [if_pos e.symm] at h2
      rw [strLe_antisymm as bs h1 h2, Char.toNat_inj.1 e]
    · rw [if_neg e] at h1
      rw [if_neg (Ne.symm e)] at h2
      simp only [decide_eq_true_eq] at h1 h2
      omega

/-! ### the shape of the tree -/

abbrev Entries := List (Str × Obj)

def flatPairs (es : Entries) : List Obj := (es.map fun e => [Obj.str e.1, e.2]).flatten

mutual
/-- the node holds the entries -/
inductive NBody (tbl : Table) : Nat → Entries → Prop
  | leaf {id d es} : tbl id = some d → dget (.str c!"Names") d = some (.seq (flatPairs es)) → NBody tbl id es
  | inner {id d ks ps} : tbl id = some d → dget (.str c!"Names") d = none →
      dget (.str c!"Kids") d = some (.seq (ks.map fun k : Nat × Str × Str => .ref k.1)) → NKids tbl ks ps →
      NBody tbl id ps.flatten
/-- kids with their limits and the entries below them -/
inductive NKids (tbl : Table) : List (Nat × Str × Str) → List Entries → Prop
  | nil : NKids tbl [] []
  | cons {id lo hi d es ks ps} : tbl id = some d → dget (.str c!"Limits") d = some (.seq [.str lo, .str hi]) →
      (es.map Prod.fst).head? = some lo → (es.map Prod.fst).getLast? = some hi →
      NBody tbl id es → NKids tbl ks ps → NKids tbl ((id, lo, hi) :: ks) (es :: ps)
end

mutual
theorem NBody.ext {tbl tbl' : Table} (h : ∀ j d, tbl j = some d → tbl' j = some d) : ∀ {id es}, NBody tbl id es →
    NBody tbl' id es
  | _, _, .leaf h1 h2 => .leaf (h _ _ h1) h2
  | _, _, .inner h1 h2 h3 h4 => .inner (h _ _ h1) h2 h3 (NKids.ext h h4)
theorem NKids.ext {tbl tbl' : Table} (h : ∀ j d, tbl j = some d → tbl' j = some d) : ∀ {ks ps}, NKids tbl ks ps →
    NKids tbl' ks ps
  | _, _, .nil => .nil
  | _, _, .cons h1 h2 h3 h4 h5 h6 => .cons (h _ _ h1) h2 h3 h4 (NBody.ext h h5) (NKids.ext h h6)
end

/-- keys strictly increasing -/
def SortedKeys (es : Entries) : Prop := es.Pairwise fun a b => strLe a.1 b.1 = true ∧ a.1 ≠ b.1

theorem dget_append_or {κ ν : Type} [DecidableEq κ] (k : κ) (a b : List (κ × ν)) :
    dget k (a ++ b) = (dget k a).or (dget k b) := by
  induction a with
  | nil => simp [dget]
  | cons p a ih =>
    simp only [List.cons_append, dget]
    split
    · simp
    · exact ih

theorem pairLookup_flat (key : Str) : ∀ es : Entries, pairLookup key (flatPairs es) = dget key es
  | [] => rfl
  | e :: es => by
    have ih := pairLookup_flat key es
    simp only [flatPairs, List.map_cons, List.flatten_cons, List.cons_append, List.nil_append, pairLookup, dget]
    split
    · rfl
    · exact ih

/-- what is in the part is inside its limits -/
theorem within_limits {es : Entries} (hs : SortedKeys es) {lo hi : Str} (hlo : (es.map Prod.fst).head? = some lo)
    (hhi : (es.map Prod.fst).getLast? = some hi) {e : Str × Obj} (he : e ∈ es) :
    strLe lo e.1 = true ∧ strLe e.1 hi = true := by
  constructor
  · cases es with
    | nil => simp at he
    | cons a es =>
      simp only [List.map_cons, List.head?_cons, Option.some.injEq] at hlo
      subst hlo
      rcases List.mem_cons.1 he with rfl | he
      · exact strLe_refl _
      · exact ((List.pairwise_cons.1 hs).1 e he).1
  · rw [List.getLast?_map] at hhi
    cases hl : es.getLast? with
    | none => rw [hl] at hhi; simp at hhi
    | some z =>
      rw [hl] at hhi
      simp only [Option.map_some, Option.some.injEq] at hhi
      subst hhi
      obtain ⟨ys, rfl⟩ := List.getLast?_eq_some_iff.1 hl
      rcases List.mem_append.1 he with he | he
      · exact ((List.pairwise_append.1 hs).2.2 e he z (by simp)).1
      · simp only [List.mem_singleton] at he
        subst he
        exact strLe_refl _

mutual
theorem lookup_body {tbl : Table} : ∀ {id es}, NBody tbl id es → SortedKeys es →
    ∃ N, ∀ n, N ≤ n → ∀ key, nameLookup tbl n id key = dget key es
  | _, _, .leaf (es := es) h1 h2 => fun _ => ⟨1, fun n hn key => by
      obtain ⟨m, rfl⟩ : ∃ m, n = m + 1 := ⟨n - 1, by omega⟩
      simp only [nameLookup, h1, h2]
      exact pairLookup_flat key es⟩
  | _, _, .inner h1 h2 h3 h4 => fun hs => by
      obtain ⟨N, hN⟩ := lookup_kids h4 hs
      refine ⟨N + 1, fun n hn key => ?_⟩
      obtain ⟨m, rfl⟩ : ∃ m, n = m + 1 := ⟨n - 1, by omega⟩
      simp only [nameLookup, h1, h2, h3]
      exact hN m (by omega) key
theorem lookup_kids {tbl : Table} : ∀ {ks ps}, NKids tbl ks ps → SortedKeys ps.flatten →
    ∃ N, ∀ n, N ≤ n → ∀ key,
      (match (ks.map fun k : Nat × Str × Str => Obj.ref k.1).find? (kidHas tbl key) with
        | some (.ref k) => nameLookup tbl n k.toNat key
        | _ => none) = dget key ps.flatten
  | _, _, .nil => fun _ => ⟨0, fun _ _ _ => rfl⟩
  | _, _, .cons (id := id) (lo := lo) (hi := hi) (es := es) (ks := ks) (ps := ps) h1 h2 h3 h4 h5 h6 => fun hs => by
      have hs' : SortedKeys (es ++ ps.flatten) := hs
      obtain ⟨hs1, hs2, hs3⟩ := List.pairwise_append.1 hs'
      obtain ⟨N1, hN1⟩ := lookup_body h5 hs1
      obtain ⟨N2, hN2⟩ := lookup_kids h6 hs2
      refine ⟨max N1 N2, fun n hn key => ?_⟩
      have hkid : kidHas tbl key (.ref id) = (strLe lo key && strLe key hi) := by
        simp only [kidHas, Int.toNat_natCast, h1, h2]
      simp only [List.map_cons, List.find?_cons, hkid, List.flatten_cons, dget_append_or]
      cases hb : (strLe lo key && strLe key hi) with
      | true =>
        simp only [Int.toNat_natCast]
        rw [hN1 n (by omega) key]
        cases hg : dget key es with
        | some v => simp
        | none =>
          have : dget key ps.flatten = none := by
            rw [dget_eq_none]
            intro hm
            obtain ⟨e, he, rfl⟩ := List.mem_map.1 hm
            simp only [Bool.and_eq_true] at hb
            have hz : ∃ z ∈ es, z.1 = hi := by
              rw [List.getLast?_map] at h4
              cases hl : es.getLast? with
              | none => rw [hl] at h4; simp at h4
              | some z =>
                rw [hl] at h4
                exact ⟨z, List.mem_of_getLast? hl, by simpa using h4⟩
            obtain ⟨z, hz, rfl⟩ := hz
            obtain ⟨g1, g2⟩ := hs3 z hz e he
            exact g2 (strLe_antisymm _ _ g1 hb.2)
          simp [this]
      | false =>
        have : dget key es = none := by
          rw [dget_eq_none]
          intro hm
          obtain ⟨e, he, rfl⟩ := List.mem_map.1 hm
          obtain ⟨g1, g2⟩ := within_limits hs1 h3 h4 he
          simp [g1, g2] at hb
        simp only [this, Option.none_or]
        exact hN2 n (by omega) key
end

/-! ### the builder makes such a tree -/

def item0 (e : Str × Obj) : NameItem := ⟨e.1, e.1, [.str e.1, e.2]⟩
def item1 (k : Nat × Str × Str) : NameItem := ⟨k.2.1, k.2.2, [.ref k.1]⟩

theorem bodies_item0 (es : Entries) : bodies (es.map item0) = flatPairs es := by
  unfold bodies flatPairs
  rw [List.map_map]
  rfl

theorem bodies_item1 (ks : List (Nat × Str × Str)) : bodies (ks.map item1) = ks.map fun k => .ref k.1 := by
  induction ks with
  | nil => rfl
  | cons k ks ih =>
    simp only [bodies] at ih
    simp only [bodies, List.map_cons, List.flatten_cons, ih]
    rfl

theorem head_map_lo {es : Entries} {it : NameItem} {its} (h : es.map item0 = it :: its) :
    (es.map Prod.fst).head? = some it.lo := by
  cases es with
  | nil => simp at h
  | cons e es =>
    simp only [List.map_cons, List.cons.injEq] at h
    rw [← h.1]; rfl

theorem getLastD_of_getLast? {α : Type} {l : List α} {a z : α} (h : l.getLast? = some z) : l.getLastD a = z := by
  rw [List.getLastD_eq_getLast?, h]; rfl

theorem last_map_hi {es : Entries} {l : List NameItem} (h : es.map item0 = l) (hne : l ≠ []) (z : NameItem) :
    (es.map Prod.fst).getLast? = some (l.getLastD z).hi := by
  subst h
  rw [List.getLast?_map]
  cases hl : es.getLast? with
  | none =>
    rw [List.getLast?_eq_none_iff] at hl
    subst hl
    exact absurd rfl hne
  | some e =>
    rw [getLastD_of_getLast? (z := item0 e) (by rw [List.getLast?_map, hl]; rfl)]
    rfl

/-- the nodes of the first level -/
theorem nodes_first {tbl : Table} : ∀ {n cs out}, Nodes kNames tbl n cs out → ∀ es, cs.flatten = es.map item0 →
    ∃ ps, NKids tbl out ps ∧ ps.flatten = es := by
  intro n cs out h
  induction h with
  | nil =>
    intro es he
    cases es with
    | nil => exact ⟨[], .nil, rfl⟩
    | cons e es => simp at he
  | @cons n it its cs out h1 _ ih =>
    intro es he
    rw [List.flatten_cons, eq_comm, List.map_eq_append_iff] at he
    obtain ⟨e1, e2, rfl, g1, g2⟩ := he
    obtain ⟨ps, h3, h4⟩ := ih e2 g2.symm
    refine ⟨e1 :: ps, .cons h1 rfl (head_map_lo g1) (last_map_hi g1 (by simp) _) (.leaf h1 ?_) h3, by simp [h4]⟩
    rw [← g1, bodies_item0]
    rfl

theorem nkids_append {tbl : Table} : ∀ {k1 k2 ps}, NKids tbl (k1 ++ k2) ps →
    ∃ p1 p2, ps = p1 ++ p2 ∧ NKids tbl k1 p1 ∧ NKids tbl k2 p2 := by
  intro k1
  induction k1 with
  | nil => intro k2 ps h; exact ⟨[], ps, rfl, .nil, h⟩
  | cons k k1 ih =>
    intro k2 ps h
    rw [List.cons_append] at h
    cases h with
    | cons h1 h2 h3 h4 h5 h6 =>
      obtain ⟨p1, p2, rfl, g1, g2⟩ := ih h6
      exact ⟨_ :: p1, p2, rfl, .cons h1 h2 h3 h4 h5 g1, g2⟩

theorem nkids_head {tbl : Table} {k ks ps} (h : NKids tbl (k :: ks) ps) :
    (ps.flatten.map Prod.fst).head? = some k.2.1 := by
  cases h with
  | @cons id lo hi d es ks ps h1 h2 h3 h4 h5 h6 =>
    rw [List.flatten_cons, List.map_append, List.head?_append, h3]
    rfl

theorem nkids_last {tbl : Table} : ∀ {ks ps}, NKids tbl ks ps → ∀ k, ks.getLast? = some k →
    (ps.flatten.map Prod.fst).getLast? = some k.2.2 := by
  intro ks
  induction ks with
  | nil => intro ps _ k hk; simp at hk
  | cons a ks ih =>
    intro ps h k hk
    cases h with
    | @cons id lo hi d es ks ps h1 h2 h3 h4 h5 h6 =>
      rw [List.flatten_cons, List.map_append, List.getLast?_append]
      cases ks with
      | nil =>
        cases h6
        simp only [List.getLast?_singleton, Option.some.injEq] at hk
        subst hk
        simpa using h4
      | cons b ks =>
        rw [ih h6 k (by rw [← hk, List.getLast?_cons_cons])]
        rfl

/-- the nodes of the other levels -/
theorem nodes_next {tbl : Table} : ∀ {n cs out}, Nodes kKids tbl n cs out → ∀ ks ps, cs.flatten = ks.map item1 →
    NKids tbl ks ps → ∃ ps', NKids tbl out ps' ∧ ps'.flatten = ps.flatten := by
  intro n cs out h
  induction h with
  | nil =>
    intro ks ps he hk
    cases ks with
    | nil => cases hk; exact ⟨[], .nil, rfl⟩
    | cons e es => simp at he
  | @cons n it its cs out h1 _ ih =>
    intro ks ps he hk
    rw [List.flatten_cons, eq_comm, List.map_eq_append_iff] at he
    obtain ⟨k1, k2, rfl, g1, g2⟩ := he
    obtain ⟨p1, p2, rfl, q1, q2⟩ := nkids_append hk
    obtain ⟨ps', h3, h4⟩ := ih k2 p2 g2.symm q2
    cases k1 with
    | nil => simp at g1
    | cons a k1 =>
      have hlo : it.lo = a.2.1 := by
        rw [List.map_cons, List.cons.injEq] at g1
        rw [← g1.1]; rfl
      refine ⟨p1.flatten :: ps', .cons h1 rfl ?_ ?_ (.inner h1 rfl ?_ q1) h3, by simp [h4]⟩
      · rw [nkids_head q1, hlo]
      · cases hl : (a :: k1).getLast? with
        | none => simp at hl
        | some z =>
          rw [nkids_last q1 z hl, ← g1, getLastD_of_getLast? (z := item1 z) (by rw [List.getLast?_map, hl]; rfl)]
          rfl
      · rw [← g1, bodies_item1]
        rfl

theorem chunked_length {cs : List (List NameItem)} (h : Chunked cs) : 1 ≤ cs.length ∧ 7 * (cs.length - 1) < cs.flatten.length := by
  induction h with
  | last h => simp
  | cons h _ ih =>
    obtain ⟨g1, g2⟩ := ih
    simp only [List.length_cons, List.flatten_cons, List.length_append] at g1 g2 ⊢
    omega

theorem nodes_out_length {field tbl} : ∀ {n cs out}, Nodes field tbl n cs out → out.length = cs.length := by
  intro n cs out h
  induction h with
  | nil => rfl
  | cons _ _ ih => simp [ih]

/-- the table without the catalog -/
def without (root : Nat) (tbl : Table) : Table := fun j => if j = root then none else tbl j

theorem Nodes.congr {field} {tbl tbl' : Table} : ∀ {n cs out}, Nodes field tbl n cs out →
    (∀ j, n ≤ j → tbl j = tbl' j) → Nodes field tbl' n cs out := by
  intro n cs out h
  induction h with
  | nil => intro _; exact .nil
  | cons h1 _ ih =>
    intro hj
    exact .cons (by rw [← hj _ (Nat.le_refl _)]; exact h1) (ih fun j hle => hj j (by omega))

/-- what the items of a level stand for -/
inductive Stands (tbl : Table) : Key → List NameItem → Entries → Prop
  | first {es} : Stands tbl kNames (es.map item0) es
  | next {ks ps} : NKids tbl ks ps → Stands tbl kKids (ks.map item1) ps.flatten

theorem build_names {root : Nat} : ∀ (fuel : Nat) (field : Key) (b : Base) (items : List NameItem) (es : Entries),
    b.Wf → (∃ d, b.dictAt root = some d) → items ≠ [] → items.length ≤ fuel → Stands (without root b.dictAt) field items es →
    ∃ b' n d, buildNameTree root fuel field b items = .ok b' ∧ b'.Wf ∧ b.count ≤ n ∧
      b.dictAt root = some d ∧ b'.dictAt root = some (setDests n d) ∧
      (∀ j, j < b.count → j ≠ root → b'.dictAt j = b.dictAt j) ∧ NBody (without root b'.dictAt) n es := by
  intro fuel
  induction fuel with
  | zero =>
    intro field b items es _ _ hne hl
    exact absurd (List.length_eq_zero_iff.1 (by omega)) hne
  | succ fuel ih =>
    intro field b items es hw ⟨dr, hdr⟩ hne hl hst
    have hroot := dictAt_lt hw hdr
    have hf : field ≠ kLimits := by cases hst <;> decide
    obtain ⟨cs, hcs, rfl⟩ := chunked_exists _ items (Nat.le_refl _) hne
    obtain ⟨b1, new, h1, h2, h3, h4, h5⟩ := nameLoop_chunks hf cs hcs 0 b 0 0 [] hw rfl (by omega)
      (len := cs.flatten.length)
    have hlen := chunked_length hcs
    have hnl := nodes_out_length h4
    have hext : ∀ j d, without root b.dictAt j = some d → without root b1.dictAt j = some d := by
      intro j d hj
      unfold without at *
      split at hj
      · cases hj
      · rename_i hjr
        rw [if_neg hjr, h5 j (dictAt_lt hw hj).2, hj]
    have h4' : Nodes field (without root b1.dictAt) b.count cs new :=
      h4.congr fun j hj => by unfold without; rw [if_neg (by omega)]
    have hdr1 : b1.dictAt root = some dr := by rw [h5 root hroot.2, hdr]
    rw [buildNameTree]
    simp only [h1, Nat.zero_add, List.nil_append]
    by_cases hone : cs.length = 1
    · rw [if_pos hone]
      let n := b.count + cs.length - 1
      have hn : n = b.count := by simp only [n]; omega
      have hnr : n ≠ root := by omega
      let b2 := (b1.modify n (ddel kLimits)).modify root (setDests n)
      have hj2 : ∀ j, j ≠ n → j ≠ root → b2.dictAt j = b1.dictAt j := by
        intro j g1 g2
        simp only [b2]
        rw [dictAt_modify_ne _ _ g2, dictAt_modify_ne _ _ g1]
      refine ⟨b2, n, dr, rfl, (h2.modify _ _).modify _ _, by omega, hdr, ?_, ?_, ?_⟩
      · simp only [b2]
        rw [dictAt_modify_self _ (by rw [dictAt_modify_ne _ _ (Ne.symm hnr)]; exact hdr1)]
      · intro j g1 g2
        rw [hj2 j (by omega) g2, h5 j g1]
      · have hext2 : ∀ j d, without root b.dictAt j = some d → without root b2.dictAt j = some d := by
          intro j d hj
          unfold without at hj
          split at hj
          · cases hj
          · rename_i hjr
            have := (dictAt_lt hw hj).2
            unfold without
            rw [if_neg hjr, hj2 j (by omega) hjr, h5 j this, hj]
        obtain ⟨c, rfl⟩ := List.length_eq_one_iff.1 hone
        cases h4 with
        | @cons _ it its _ out g1 _ =>
          have hd2 : b2.dictAt n = some [(field, .seq (bodies (it :: its)))] := by
            simp only [b2]
            rw [dictAt_modify_ne _ _ hnr, dictAt_modify_self _ (hn ▸ g1)]
            simp [nameDict, ddel, hf]
          have hd3 : without root b2.dictAt n = some [(field, .seq (bodies (it :: its)))] := by
            unfold without
            rw [if_neg hnr, hd2]
          simp only [List.flatten_cons, List.flatten_nil, List.append_nil] at hst
          generalize it :: its = l at *
          cases hst with
          | first => exact .leaf hd3 (by rw [bodies_item0]; rfl)
          | next hk => exact .inner hd3 rfl (by rw [bodies_item1]; rfl) (hk.ext hext2)
    · rw [if_neg hone]
      have hst' : Stands (without root b1.dictAt) kKids (new.map item1) es := by
        generalize hfl : cs.flatten = l at hst
        cases hst with
        | first =>
          obtain ⟨ps, g1, g2⟩ := nodes_first h4' es hfl
          rw [← g2]
          exact .next g1
        | next hk =>
          obtain ⟨ps, g1, g2⟩ := nodes_next h4' _ _ hfl (hk.ext hext)
          rw [← g2]
          exact .next g1
      obtain ⟨b', n, d, g1, g2, g3, g4, g5, g6, g7⟩ := ih kKids b1 (new.map item1) es h2 ⟨dr, hdr1⟩ (by
          intro e
          have := congrArg List.length e
          simp at this
          subst this
          simp at hnl
          omega) (by rw [List.length_map]; omega) hst'
      refine ⟨b', n, d, g1, g2, by omega, by rw [hdr, ← g4, hdr1], g5, ?_, g7⟩
      intro j k1 k2
      rw [g6 j (by omega) k2, h5 j k1]

/-! ### the property -/

theorem dget_exists {κ ν : Type} [DecidableEq κ] {d : List (κ × ν)} {k : κ} (hk : k ∈ d.map Prod.fst) :
    ∃ v, dget k d = some v := by
  cases h : dget k d with
  | some v => exact ⟨v, rfl⟩
  | none => rw [dget_eq_none] at h; exact absurd hk h

/-- the sorted entries answer like the dict -/
theorem sorted_lookup (dests : Entries) (hn : (dests.map Prod.fst).Nodup) :
    let es := ((dests.map Prod.fst).mergeSort strLe).map fun k => (k, (dget k dests).getD .other)
    SortedKeys es ∧ ∀ key, dget key es = dget key dests := by
  intro es
  have hperm : ((dests.map Prod.fst).mergeSort strLe).Perm (dests.map Prod.fst) := List.mergeSort_perm _ _
  have hnd := hperm.nodup_iff.2 hn
  have hkeys : es.map Prod.fst = (dests.map Prod.fst).mergeSort strLe := by
    simp [es, List.map_map, Function.comp_def]
  constructor
  · have hp := List.pairwise_mergeSort (le := strLe) strLe_trans
      (by intro a b; rcases strLe_total a b with h | h <;> simp [h]) (dests.map Prod.fst)
    have := hp.and hnd
    simp only [es, SortedKeys, List.pairwise_map]
    exact this
  · intro key
    by_cases hk : key ∈ dests.map Prod.fst
    · obtain ⟨v, hv⟩ := dget_exists hk
      rw [hv]
      refine dget_of_mem (by rw [hkeys]; exact hnd) ?_
      simp only [es, List.mem_map]
      exact ⟨key, hperm.mem_iff.2 hk, by rw [hv]; rfl⟩
    · rw [dget_eq_none.2 hk, dget_eq_none, hkeys]
      exact fun h => hk (hperm.mem_iff.1 h)

theorem nameTree_root_aux (b : Base) (root fuel : Nat) (dests : Entries) (hw : b.Wf) (d : List (Key × Obj))
    (hroot : b.dictAt root = some d) (hnames : dget kNames d = none ∨ ∃ e, dget kNames d = some (.dict e))
    (hn : (dests.map Prod.fst).Nodup) (hne : dests ≠ []) (hfuel : dests.length ≤ fuel) :
    ∃ b' n N, buildDests root fuel b dests = .ok b' ∧ Spec.destsRoot b'.dictAt root = some (.ref (n : Nat)) ∧
      (∀ depth, N ≤ depth → ∀ key, nameLookup b'.dictAt depth n key = dget key dests) ∧
      (∀ j, j < b.count → j ≠ root → b'.dictAt j = b.dictAt j) ∧ b'.dictAt root = some (setDests n d) ∧ b'.Wf ∧
      ∃ es, NBody (without root b'.dictAt) n es ∧ SortedKeys es ∧ ∀ key, dget key es = dget key dests := by
  obtain ⟨hs, hg⟩ := sorted_lookup dests hn
  have hlen : ((dests.map Prod.fst).mergeSort strLe).length = dests.length := by
    rw [List.length_mergeSort, List.length_map]
  obtain ⟨b', n, d', g1, g2, g3, g4, g5, g6, g7⟩ := build_names fuel kNames b _ _ hw ⟨d, hroot⟩ (by
    intro e
    have := congrArg List.length e
    rw [List.length_map, List.length_map, hlen] at this
    exact hne (List.length_eq_zero_iff.1 this)) (by rw [List.length_map, List.length_map, hlen]; exact hfuel)
    (.first (tbl := without root b.dictAt) (es := ((dests.map Prod.fst).mergeSort strLe).map fun k => (k, (dget k dests).getD .other)))
  have g8 : NBody b'.dictAt n _ := g7.ext fun j d hj => by
    unfold without at hj
    split at hj
    · cases hj
    · exact hj
  obtain ⟨N, hN⟩ := lookup_body g8 hs
  refine ⟨b', n, N, ?_, ?_, fun depth hd key => by rw [hN depth hd key, hg key], g6, ?_, g2, _, g7, hs, hg⟩
  · rw [buildDests]
    have : (dests.map Prod.fst).length ≠ 0 := by
      rw [List.length_map]; exact fun e => hne (List.length_eq_zero_iff.1 e)
    simp only [if_neg this]
    rw [← g1, List.map_map]
    rfl
  · rw [hroot] at g4
    cases g4
    simp only [Spec.destsRoot, g5]
    rcases hnames with h | ⟨e, h⟩
    · have h1 : setDests n d = dset kNames (.dict [(kDests, .ref n)]) d := by simp only [setDests, h]
      have h2 : dget (.str c!"Names") (setDests n d) = some (.dict [(kDests, .ref n)]) := by
        rw [h1]; exact dget_dset_self kNames _ _
      simp only [h2]
      rfl
    · have h1 : setDests n d = dset kNames (.dict (dset kDests (.ref n) e)) d := by simp only [setDests, h]
      have h2 : dget (.str c!"Names") (setDests n d) = some (.dict (dset kDests (.ref n) e)) := by
        rw [h1]; exact dget_dset_self kNames _ _
      simp only [h2]
      exact dget_dset_self kDests _ _
  · rw [hroot] at g4
    cases g4
    exact g5

theorem dget_setDests {n : Nat} {d : List (Key × Obj)} {k : Key} (hk : k ≠ kNames) : dget k (setDests n d) = dget k d := by
  unfold setDests
  split
  · exact dget_dset_ne (Ne.symm hk) _ _
  · exact dget_dset_ne (Ne.symm hk) _ _
  · rfl

theorem dget_find {κ ν : Type} [DecidableEq κ] (k : κ) (l : List (κ × ν)) :
    dget k l = (l.find? fun r => r.1 = k).map Prod.snd := by
  induction l with
  | nil => rfl
  | cons p l ih =>
    simp only [dget, List.find?_cons]
    by_cases h : p.1 = k <;> simp [h, ih]

theorem dupdate_nodup {κ ν : Type} [DecidableEq κ] (e : List (κ × ν)) : ∀ d : List (κ × ν),
    (d.map Prod.fst).Nodup → ((dupdate d e).map Prod.fst).Nodup := by
  induction e with
  | nil => intro d h; exact h
  | cons p e ih => intro d h; exact ih _ (dset_nodup h)

theorem dset_length {κ ν : Type} [DecidableEq κ] (k : κ) (v : ν) (d : List (κ × ν)) :
    d.length ≤ (dset k v d).length ∧ (dset k v d).length ≤ d.length + 1 ∧ 0 < (dset k v d).length := by
  induction d with
  | nil => simp [dset]
  | cons p d ih =>
    simp only [dset]
    split
    · simp
    · simp only [List.length_cons]; omega

theorem dupdate_length {κ ν : Type} [DecidableEq κ] (e : List (κ × ν)) : ∀ d : List (κ × ν),
    d.length ≤ (dupdate d e).length ∧ (dupdate d e).length ≤ d.length + e.length ∧ (e ≠ [] → 0 < (dupdate d e).length) := by
  induction e with
  | nil => intro d; simp [dupdate]
  | cons p e ih =>
    intro d
    have h1 := ih (dset p.1 p.2 d)
    have h2 := dset_length p.1 p.2 d
    simp only [dupdate, List.foldl_cons, List.length_cons] at h1 ⊢
    refine ⟨?_, ?_, fun _ => ?_⟩ <;> omega

/-- **C45.** Whatever labels were registered, in whatever order and with whatever repetitions
(`self.dests[label] = …`), the name tree built by `output` leads a reader from the catalog to the
destination registered last for the label, and to nothing for a label that was never registered. The
objects of the document and the other entries of the catalog are left alone. -/
theorem C45_name_tree (b : Base) (root fuel : Nat) (regs : List (Str × Obj)) (hw : b.Wf) (d : List (Key × Obj))
    (hroot : b.dictAt root = some d) (hnames : dget kNames d = none ∨ ∃ e, dget kNames d = some (.dict e))
    (hne : regs ≠ []) (hfuel : regs.length ≤ fuel) :
    ∃ b' n N, buildDests root fuel b (dupdate [] regs) = .ok b' ∧
      Spec.destsRoot b'.dictAt root = some (.ref (n : Nat)) ∧
      (∀ depth, N ≤ depth → ∀ label, nameLookup b'.dictAt depth n label =
        (regs.reverse.find? fun r => r.1 = label).map Prod.snd) ∧
      (∀ j, j < b.count → j ≠ root → b'.dictAt j = b.dictAt j) ∧
      ∃ d', b'.dictAt root = some d' ∧ ∀ k, k ≠ .str c!"Names" → dget k d' = dget k d := by
  have h := nameTree_root_aux b root fuel (dupdate [] regs) hw d hroot hnames (dupdate_nodup regs [] (by simp))
    (by
      intro e
      have := (dupdate_length regs []).2.2 hne
      rw [e] at this
      simp at this) (by
      have := (dupdate_length regs []).2.1
      simp only [List.length_nil, Nat.zero_add] at this
      omega)
  obtain ⟨b', n, N, h1, h2, h3, h4, h5, -⟩ := h
  refine ⟨b', n, N, h1, h2, fun depth hd label => ?_, h4, _, h5, fun k hk => dget_setDests hk⟩
  rw [h3 depth hd label, dget_dupdate, dget_find]
  simp [dget]

/-- a new document meets the hypotheses; its eight labels need two levels -/
example : (PdfDoc.new c!"1.5").base.Wf ∧ (∃ d, (PdfDoc.new c!"1.5").base.dictAt 1 = some d ∧ dget kNames d = none) :=
  ⟨rfl, _, rfl, rfl⟩

/-- the tree of eight labels: two leaves and a root -/
example :
    match buildNameTree 1 8 kNames (PdfDoc.new c!"1.5").base
      ((([c!"a", c!"b", c!"c", c!"d", c!"e", c!"f", c!"g", c!"h"].zipIdx).map fun p => item0 (p.1, .int p.2))) with
    | .ok b => b.content.length = 4 ∧ nameLookup b.dictAt 2 4 c!"h" = some (.int 7) ∧
        nameLookup b.dictAt 2 4 c!"c" = some (.int 2) ∧ nameLookup b.dictAt 2 4 c!"gg" = none ∧
        Spec.destsRoot b.dictAt 1 = some (.ref 4)
    | .error _ => False := ⟨rfl, rfl, rfl, rfl, rfl⟩

/-- without labels there is no tree -/
theorem C45_no_labels (b : Base) (root fuel : Nat) : buildDests root fuel b [] = .ok b := rfl

end Verif
