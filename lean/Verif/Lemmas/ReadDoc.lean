import Verif.Props.C64_ReadBack
import Verif.Spec.ReadDoc
import Verif.Props.C44_PageTree
import Verif.Props.C45_NameTree
import Verif.Props.C46_C47_Outline
/-! Lemmas for C65: the file as a reader sees it and the table of dicts it was written from. -/
namespace Verif
open Spec

/-- keys that are written as they are -/
def okKey (k : Str) : Prop :=
  (k.all fun c => decide (c.toNat < 256)) = true ∧ k ≠ c!"Length" ∧ k ≠ c!"__stream__" ∧ k ≠ c!"__skip_filter__"

instance (k : Str) : Decidable (okKey k) := by unfold okKey; infer_instance

/-- the dictionary read is that of the dict -/
structure DReads (D : List (Bytes × PObj)) (d : List (Key × Obj)) : Prop where
  look : ∀ k, okKey k → Spec.lookup (latinBytes k) D = (dget (.str k) d).bind meaning
  ex : ∀ k v, okKey k → dget (.str k) d = some v → ∃ p, meaning v = some p

/-- the dictionaries in the file are those of the table -/
def Reads (F : PdfFile) (tbl : Table) : Prop := ∀ n d, tbl n = some d → ∃ D, F.dict n = some D ∧ DReads D d

theorem meaningItems_dget {k : Str} {v : Obj} : (l : List (Key × Obj)) → (ps : List (Bytes × PObj)) →
    meaningItems l = some ps → dget (.str k) l = some v → ∃ p, meaning v = some p
  | [], _, _, h => by simp [dget] at h
  | (.int i, w) :: l, ps, h, _ => by simp [meaningItems] at h
  | (.str k', w) :: l, ps, h, hd => by
    simp only [meaningItems] at h
    split at h
    · cases h1 : meaning w with
      | none => rw [h1] at h; simp at h
      | some p =>
        cases h2 : meaningItems l with
        | none => rw [h1, h2] at h; simp at h
        | some qs =>
          simp only [dget] at hd
          split at hd
          · cases hd; exact ⟨p, h1⟩
          · exact meaningItems_dget l qs h2 hd
    · cases h

theorem DReads.of_items {d : List (Key × Obj)} {D : List (Bytes × PObj)} (h : meaningItems d = some D) : DReads D d :=
  ⟨fun k hk => lookup_meaning hk.1 d D h, fun _ _ _ hv => meaningItems_dget d D h hv⟩

theorem meaning_dict {d : List (Key × Obj)} {p : PObj} (h : meaning (.dict d) = some p) :
    ∃ D, p = .dict D ∧ meaningItems d = some D := by
  simp only [meaning] at h
  split at h
  · cases h
  · cases h2 : meaningItems d with
    | none => rw [h2] at h; cases h
    | some D => rw [h2] at h; cases h; exact ⟨D, rfl, rfl⟩

theorem meaning_seq {l : List Obj} {p : PObj} (h : meaning (.seq l) = some p) :
    ∃ ps, p = .arr ps ∧ meaningList l = some ps := by
  simp only [meaning] at h
  cases h2 : meaningList l with
  | none => rw [h2] at h; cases h
  | some D => rw [h2] at h; cases h; exact ⟨D, rfl, rfl⟩

section
variable {D : List (Bytes × PObj)} {d : List (Key × Obj)} (h : DReads D d) {k : Str} {kb : Bytes}
include h

theorem DReads.get (hk : okKey k) (e : latinBytes k = kb) : Spec.lookup kb D = (dget (.str k) d).bind meaning := by
  rw [← e]; exact h.look k hk

theorem DReads.none (hk : okKey k) (e : latinBytes k = kb) (hd : dget (.str k) d = none) : Spec.lookup kb D = none := by
  rw [h.get hk e, hd]; rfl

theorem DReads.val (hk : okKey k) (e : latinBytes k = kb) {v : Obj} (hd : dget (.str k) d = some v) :
    ∃ p, meaning v = some p ∧ Spec.lookup kb D = some p := by
  obtain ⟨p, hp⟩ := h.ex k v hk hd
  exact ⟨p, hp, by rw [h.get hk e, hd]; exact hp⟩

theorem DReads.known (hk : okKey k) (e : latinBytes k = kb) {v : Obj} (hd : dget (.str k) d = some v) {p : PObj}
    (hp : meaning v = some p) : Spec.lookup kb D = some p := by
  rw [h.get hk e, hd]; exact hp

theorem DReads.refOpt (hk : okKey k) (e : latinBytes k = kb) {o : Option Nat}
    (hd : dget (.str k) d = o.map (fun p : Nat => .ref p)) : refEntry kb D = o := by
  rw [refEntry, h.get hk e, hd]
  cases o <;> rfl

theorem DReads.ref (hk : okKey k) (e : latinBytes k = kb) {n : Nat} (hd : dget (.str k) d = some (.ref n)) :
    refEntry kb D = some n := h.refOpt hk e (o := some n) hd

theorem DReads.refNone (hk : okKey k) (e : latinBytes k = kb) (hd : dget (.str k) d = Option.none) :
    refEntry kb D = Option.none := h.refOpt hk e (o := Option.none) hd

theorem DReads.isName (hk : okKey k) (e : latinBytes k = kb) {x w y : Bytes} (hd : dget (.str k) d = some (.bytes x))
    (hx : meaning (.bytes x) = some (.name w)) : isName kb y D = decide (w = y) := by
  simp only [Spec.isName, h.known hk e hd hx]

theorem DReads.str (hk : okKey k) (e : latinBytes k = kb) {s : Str} (hd : dget (.str k) d = some (.str s)) :
    Spec.lookup kb D = some (.str (latinBytes s)) ∧ stringChars s = true := by
  obtain ⟨p, hp, hl⟩ := h.val hk e hd
  simp only [meaning] at hp
  split at hp
  · rename_i hs
    cases hp
    exact ⟨hl, hs⟩
  · cases hp

theorem DReads.seq (hk : okKey k) (e : latinBytes k = kb) {l : List Obj} (hd : dget (.str k) d = some (.seq l)) :
    ∃ ps, meaningList l = some ps ∧ Spec.lookup kb D = some (.arr ps) := by
  obtain ⟨p, hp, hl⟩ := h.val hk e hd
  obtain ⟨ps, rfl, hps⟩ := meaning_seq hp
  exact ⟨ps, hps, hl⟩

theorem DReads.dict (hk : okKey k) (e : latinBytes k = kb) {l : List (Key × Obj)} (hd : dget (.str k) d = some (.dict l)) :
    ∃ L, DReads L l ∧ Spec.lookup kb D = some (.dict L) := by
  obtain ⟨p, hp, hl⟩ := h.val hk e hd
  obtain ⟨ps, rfl, hps⟩ := meaning_dict hp
  exact ⟨ps, .of_items hps, hl⟩

end

theorem dget_filter {κ ν : Type} [DecidableEq κ] (q : κ × ν → Bool) (k : κ) (hq : ∀ v, q (k, v) = true) :
    ∀ l : List (κ × ν), dget k (l.filter q) = dget k l
  | [] => rfl
  | p :: l => by
    by_cases hp : q p = true
    · rw [List.filter_cons_of_pos hp]
      simp only [dget, dget_filter q k hq l]
    · rw [List.filter_cons_of_neg hp, dget_filter q k hq l]
      simp only [dget]
      rw [if_neg]
      rintro e
      exact hp (by rw [← hq p.2, ← e])

theorem meaningList_refs (l : List Nat) : meaningList (l.map fun k : Nat => Obj.ref k) = some (l.map fun k : Nat => PObj.ref k 0) := by
  induction l with
  | nil => rfl
  | cons a l ih => simp [meaningList, meaning, ih]

/-! ### The page tree -/

mutual
theorem leaves_read {F : PdfFile} {tbl : Table} (h : Reads F tbl) : ∀ {par id l}, PageNode tbl par id l →
    ∃ N, ∀ depth, N ≤ depth → F.leaves depth par id = some l
  | _, _, _, .page (par := par) (id := id) h1 h2 h3 => by
    obtain ⟨D, hD, hr⟩ := h _ _ h1
    refine ⟨1, fun depth hd => ?_⟩
    obtain ⟨m, rfl⟩ : ∃ m, depth = m + 1 := ⟨depth - 1, by omega⟩
    simp only [PdfFile.leaves, hD, hr.ref (k := c!"Parent") (kb := b!"Parent") (by decide) rfl h3]
    rw [if_neg (by simp), hr.isName (k := c!"Type") (kb := b!"Type") (by decide) rfl h2 (w := b!"Page") rfl]
    simp
  | _, _, _, .pages (par := par) (id := id) (kids := kids) (leaves := l) h1 h2 h3 h4 h5 h6 => by
    obtain ⟨D, hD, hr⟩ := h _ _ h1
    obtain ⟨N, hN⟩ := kids_read h h6
    refine ⟨N + 1, fun depth hd => ?_⟩
    obtain ⟨m, rfl⟩ : ∃ m, depth = m + 1 := ⟨depth - 1, by omega⟩
    obtain ⟨lss, g1, g2⟩ := hN m (by omega)
    obtain ⟨ps, k1, k2⟩ := hr.seq (k := c!"Kids") (kb := b!"Kids") (by decide) rfl h4
    rw [meaningList_refs] at k1
    cases k1
    simp only [PdfFile.leaves, hD, hr.refOpt (k := c!"Parent") (kb := b!"Parent") (by decide) rfl h3, k2,
      hr.known (k := c!"Count") (kb := b!"Count") (by decide) rfl h5 rfl]
    rw [if_neg (by simp), hr.isName (k := c!"Type") (kb := b!"Type") (by decide) rfl h2 (w := b!"Pages") rfl,
      hr.isName (k := c!"Type") (kb := b!"Type") (by decide) rfl h2 (w := b!"Pages") rfl]
    rw [if_neg (by decide), if_pos (by decide)]
    rw [g1]
    simp only [g2, if_true]
theorem kids_read {F : PdfFile} {tbl : Table} (h : Reads F tbl) : ∀ {par ids ls}, PageNodes tbl par ids ls →
    ∃ N, ∀ depth, N ≤ depth → ∃ lss, allSome (fun k => k.target.bind fun i => F.leaves depth (some par) i)
      (ids.map fun k : Nat => PObj.ref k 0) = some lss ∧ lss.flatten = ls
  | _, _, _, .nil => ⟨0, fun _ _ => ⟨[], rfl, rfl⟩⟩
  | _, _, _, .cons (par := par) (id := id) (ids := ids) (l := l) h1 h2 => by
    obtain ⟨N1, g1⟩ := leaves_read h h1
    obtain ⟨N2, g2⟩ := kids_read h h2
    refine ⟨max N1 N2, fun depth hd => ?_⟩
    obtain ⟨lss, k1, k2⟩ := g2 depth (by omega)
    refine ⟨l :: lss, ?_, by simp [k2]⟩
    have : (PObj.ref (id : Int) 0).target = some id := rfl
    simp only [List.map_cons, allSome, this, Option.bind_some, g1 depth (by omega), k1]
end

/-! ### The name tree -/

theorem latin_of_string {s : Str} (h : stringChars s = true) : (s.all fun c => decide (c.toNat < 256)) = true := by
  simp only [stringChars, List.all_eq_true, Bool.and_eq_true] at h ⊢
  exact fun c hc => (h c hc).1.1

theorem latin_char_inj {a b : Char} (ha : a.toNat < 256) (hb : b.toNat < 256) :
    UInt8.ofNat a.toNat = UInt8.ofNat b.toNat ↔ a.toNat = b.toNat := by
  constructor
  · intro h
    have := congrArg UInt8.toNat h
    simpa [UInt8.toNat_ofNat', Nat.mod_eq_of_lt ha, Nat.mod_eq_of_lt hb] using this
  · intro h; rw [h]

theorem bytesLe_latin : ∀ (a b : Str), (a.all fun c => decide (c.toNat < 256)) = true →
    (b.all fun c => decide (c.toNat < 256)) = true → bytesLe (latinBytes a) (latinBytes b) = strLe a b
  | [], _, _, _ => by simp [latinBytes, bytesLe, strLe]
  | _ :: _, [], _, _ => by simp [latinBytes, bytesLe, strLe]
  | x :: a, y :: b, ha, hb => by
    simp only [List.all_cons, Bool.and_eq_true, decide_eq_true_eq] at ha hb
    have ih := bytesLe_latin a b ha.2 hb.2
    simp only [latinBytes] at ih
    simp only [latinBytes, List.map_cons, bytesLe, strLe, ih]
    simp only [latin_char_inj ha.1 hb.1]
    split
    · rfl
    · simp only [UInt8.lt_iff_toNat_lt, UInt8.toNat_ofNat', Nat.mod_eq_of_lt ha.1, Nat.mod_eq_of_lt hb.1]

theorem latinBytes_inj {a b : Str} (ha : (a.all fun c => decide (c.toNat < 256)) = true)
    (hb : (b.all fun c => decide (c.toNat < 256)) = true) : latinBytes a = latinBytes b ↔ a = b :=
  ⟨fun h => latin_inj a b ha hb h, fun h => by rw [h]⟩

theorem findPair_flat {key : Str} (hk : (key.all fun c => decide (c.toNat < 256)) = true) : ∀ (es : Entries) (ps : List PObj),
    meaningList (flatPairs es) = some ps → findPair (latinBytes key) ps = (pairLookup key (flatPairs es)).bind meaning
  | [], ps, h => by
    simp only [flatPairs, List.map_nil, List.flatten_nil, meaningList, Option.some.injEq] at h
    subst h
    rfl
  | e :: es, ps, h => by
    have ih := findPair_flat hk es
    simp only [flatPairs, List.map_cons, List.flatten_cons, List.cons_append, List.nil_append, meaningList, meaning] at h ih ⊢
    by_cases hs : stringChars e.1 = true
    · rw [if_pos hs] at h
      cases h1 : meaning e.2 with
      | none => rw [h1] at h; simp at h
      | some p =>
        cases h2 : meaningList (es.map fun e => [Obj.str e.1, e.2]).flatten with
        | none => rw [h1, h2] at h; simp at h
        | some qs =>
          rw [h1, h2] at h
          simp only [Option.some.injEq] at h
          subst h
          simp only [findPair, pairLookup, latinBytes_inj (latin_of_string hs) hk]
          split
          · simp [h1]
          · exact ih qs h2
    · rw [if_neg hs] at h
      simp at h

/-- what is known of a kid -/
theorem nkids_mem {tbl : Table} : ∀ {ks ps}, NKids tbl ks ps → ∀ k ∈ ks, ∃ es d, NBody tbl k.1 es ∧ tbl k.1 = some d ∧
    dget (.str c!"Limits") d = some (.seq [.str k.2.1, .str k.2.2])
  | _, _, .nil, k, hk => by simp at hk
  | _, _, .cons h1 h2 h3 h4 h5 h6, k, hk => by
    rcases List.mem_cons.1 hk with rfl | hk
    · exact ⟨_, _, h5, h1, h2⟩
    · exact nkids_mem h6 k hk

theorem inLimits_kid {F : PdfFile} {tbl : Table} (h : Reads F tbl) {key : Str}
    (hk : (key.all fun c => decide (c.toNat < 256)) = true) {k : Nat × Str × Str} {d : List (Key × Obj)} (h1 : tbl k.1 = some d)
    (h2 : dget (.str c!"Limits") d = some (.seq [.str k.2.1, .str k.2.2])) :
    F.inLimits (latinBytes key) (.ref k.1 0) = kidHas tbl key (.ref k.1) := by
  obtain ⟨D, hD, hr⟩ := h _ _ h1
  obtain ⟨ps, g1, g2⟩ := hr.seq (k := c!"Limits") (kb := b!"Limits") (by decide) rfl h2
  have ht : (PObj.ref (k.1 : Int) 0).target = some k.1 := rfl
  simp only [meaningList, meaning] at g1
  by_cases hs : stringChars k.2.1 = true <;> by_cases hs' : stringChars k.2.2 = true <;> simp only [hs, hs'] at g1 <;> simp at g1
  subst g1
  simp only [PdfFile.inLimits, ht, Option.bind_some, hD, g2, kidHas, Int.toNat_natCast, h1, h2,
    bytesLe_latin _ _ (latin_of_string hs) hk, bytesLe_latin _ _ hk (latin_of_string hs')]

theorem find_kids {F : PdfFile} {tbl : Table} (h : Reads F tbl) {key : Str}
    (hk : (key.all fun c => decide (c.toNat < 256)) = true) : ∀ ks : List (Nat × Str × Str),
    (∀ k ∈ ks, ∃ es d, NBody tbl k.1 es ∧ tbl k.1 = some d ∧
      dget (.str c!"Limits") d = some (.seq [.str k.2.1, .str k.2.2])) →
    ((ks.map fun k => PObj.ref k.1 0).find? (F.inLimits (latinBytes key)) = none ∧
      (ks.map fun k => Obj.ref k.1).find? (kidHas tbl key) = none) ∨
    ∃ (k : Nat) (es : Entries), (ks.map fun k => PObj.ref k.1 0).find? (F.inLimits (latinBytes key)) = some (.ref k 0) ∧
      (ks.map fun k => Obj.ref k.1).find? (kidHas tbl key) = some (.ref (k : Nat)) ∧ NBody tbl k es
  | [], _ => .inl ⟨rfl, rfl⟩
  | k :: ks, hm => by
    obtain ⟨es, d, h1, h2, h3⟩ := hm k (by simp)
    have e := inLimits_kid h hk h2 h3
    simp only [List.map_cons, List.find?_cons, e]
    cases hb : kidHas tbl key (.ref k.1) with
    | true => exact .inr ⟨k.1, es, rfl, rfl, h1⟩
    | false => exact find_kids h hk ks fun k' hk' => hm k' (by simp [hk'])

theorem findName_read {F : PdfFile} {tbl : Table} (h : Reads F tbl) {key : Str}
    (hk : (key.all fun c => decide (c.toNat < 256)) = true) : ∀ (depth : Nat) {id es}, NBody tbl id es →
    F.findName depth id (latinBytes key) = (nameLookup tbl depth id key).bind meaning
  | 0, _, _, _ => rfl
  | depth + 1, id, es, hb => by
    cases hb with
    | leaf h1 h2 =>
      obtain ⟨D, hD, hr⟩ := h _ _ h1
      obtain ⟨ps, g1, g2⟩ := hr.seq (k := c!"Names") (kb := b!"Names") (by decide) rfl h2
      simp only [PdfFile.findName, nameLookup, hD, g2, h1, h2]
      exact findPair_flat hk es ps g1
    | @inner _ d ks ps h1 h2 h3 h4 =>
      obtain ⟨D, hD, hr⟩ := h _ _ h1
      have g2 := hr.none (k := c!"Names") (kb := b!"Names") (by decide) rfl h2
      obtain ⟨qs, g3, g4⟩ := hr.seq (k := c!"Kids") (kb := b!"Kids") (by decide) rfl h3
      have g5 := meaningList_refs (ks.map Prod.fst)
      simp only [List.map_map, Function.comp_def] at g5
      rw [g5] at g3
      cases g3
      simp only [PdfFile.findName, nameLookup, hD, g2, h1, h2, h3, g4]
      rcases find_kids h hk ks (nkids_mem h4) with ⟨e1, e2⟩ | ⟨k, es', e1, e2, e3⟩
      · simp only [e1, e2]; rfl
      · have ht : (PObj.ref (k : Int) 0).target = some k := rfl
        simp only [e1, e2, ht, Option.bind_some, Int.toNat_natCast]
        exact findName_read h hk depth e3

/-! ### The outline -/

mutual
/-- the item as a reader shows it -/
def Spec.Outline.bookmark : Outline → Bookmark
  | .node text label ch => .mk (latinBytes text) (latinBytes label) (Spec.Outline.bookmarkList ch)
def Spec.Outline.bookmarkList : List Outline → List Bookmark
  | [] => []
  | o :: l => o.bookmark :: Spec.Outline.bookmarkList l
end

mutual
theorem item_read {F : PdfFile} {tbl : Table} (h : Reads F tbl) : ∀ {level parent prev next id o},
    OutItem tbl level parent prev next id o → ∃ N D, F.dict id = some D ∧
      refEntry b!"Parent" D = some parent ∧ refEntry b!"Prev" D = prev ∧ refEntry b!"Next" D = next ∧
      ∃ t l ks, o.bookmark = .mk t l ks ∧ Spec.lookup b!"Title" D = some (.str t) ∧
        Spec.lookup b!"Dest" D = some (.str l) ∧ ∀ depth, N ≤ depth →
        (match refEntry b!"First" D, refEntry b!"Last" D with
            | none, none => some []
            | some a, some b => F.bookmarks depth id none a b
            | _, _ => none) = some ks
  | _, _, _, _, _, _, .mk (id := id) (d := d) h1 h2 h3 h4 h5 h6 h7 => by
    obtain ⟨D, hD, hr⟩ := h _ _ h1
    obtain ⟨N, hN⟩ := outKids_read h hr h7
    exact ⟨N, D, hD, hr.ref (k := c!"Parent") (by decide) rfl h4, hr.refOpt (k := c!"Prev") (by decide) rfl h5,
      hr.refOpt (k := c!"Next") (by decide) rfl h6, _, _, _, by rw [Outline.bookmark],
      (hr.str (k := c!"Title") (by decide) rfl h2).1, (hr.str (k := c!"Dest") (by decide) rfl h3).1, hN⟩
theorem outKids_read {F : PdfFile} {tbl : Table} (h : Reads F tbl) : ∀ {level id d l} {D : List (Bytes × PObj)}, DReads D d →
    OutKids tbl level id d l → ∃ N, ∀ depth, N ≤ depth →
        (match refEntry b!"First" D, refEntry b!"Last" D with
            | none, none => some []
            | some a, some b => F.bookmarks depth id none a b
            | _, _ => none) = some (Spec.Outline.bookmarkList l)
  | _, _, _, _, D, hr, .leaf h1 h2 h3 => ⟨0, fun _ _ => by
      simp only [hr.refNone (k := c!"First") (kb := b!"First") (by decide) rfl h1,
        hr.refNone (k := c!"Last") (kb := b!"Last") (by decide) rfl h2]
      rfl⟩
  | _, _, _, _, D, hr, .inner h1 h2 h3 h4 h5 h6 => by
      obtain ⟨N, hN⟩ := sibs_read h h6
      refine ⟨N, fun depth hd => ?_⟩
      simp only [hr.ref (k := c!"First") (kb := b!"First") (by decide) rfl h1,
        hr.ref (k := c!"Last") (kb := b!"Last") (by decide) rfl h2]
      exact hN depth hd
theorem sibs_read {F : PdfFile} {tbl : Table} (h : Reads F tbl) : ∀ {level parent prev first last l},
    OutSibs tbl level parent prev first last l → ∃ N, ∀ depth, N ≤ depth →
      F.bookmarks depth parent prev first last = some (Spec.Outline.bookmarkList l)
  | _, _, _, _, _, _, .one (id := id) h1 => by
      obtain ⟨N, D, g1, g2, g3, g4, t, l, ks, g5, g6, g7, g8⟩ := item_read h h1
      refine ⟨N + 1, fun depth hd => ?_⟩
      obtain ⟨m, rfl⟩ : ∃ m, depth = m + 1 := ⟨depth - 1, by omega⟩
      have := g8 m (by omega)
      simp only [PdfFile.bookmarks, g1, g2, g3, g4, g6, g7]
      cases e1 : refEntry b!"First" D <;> cases e2 : refEntry b!"Last" D <;> simp only [e1, e2] at this ⊢ <;> simp_all [Spec.Outline.bookmarkList]
  | _, _, _, _, _, _, .cons (id := id) h1 h2 => by
      obtain ⟨N, D, g1, g2, g3, g4, t, l, ks, g5, g6, g7, g8⟩ := item_read h h1
      obtain ⟨N', hN⟩ := sibs_read h h2
      refine ⟨max N N' + 1, fun depth hd => ?_⟩
      obtain ⟨m, rfl⟩ : ∃ m, depth = m + 1 := ⟨depth - 1, by omega⟩
      have := g8 m (by omega)
      simp only [PdfFile.bookmarks, g1, g2, g3, g4, g6, g7, hN m (by omega)]
      cases e1 : refEntry b!"First" D <;> cases e2 : refEntry b!"Last" D <;> simp only [e1, e2] at this ⊢ <;> simp_all [Spec.Outline.bookmarkList]
end

end Verif
