import Verif.Lemmas.Writable
import Verif.Lemmas.PdfTrees
/-! Lemmas for C91: the objects of a document with its trees can be written. -/
namespace Verif
open Spec

/-! ### Dicts that change -/

theorem Fine.put {d : List (Key × Obj)} (h : Fine d) {k : Str} {v : Obj} (hk : nameChars k = true) (hv : Sure v)
    (h1 : Key.str k ≠ kStream) (h2 : Key.str k ≠ kFilter) (h3 : Key.str k ≠ kSkip) : Fine (dset (.str k) v d) := by
  refine ⟨?_, ?_, ?_⟩
  · intro p hp hne
    rcases dget_dset_mem hp with rfl | hp
    · exact ⟨k, rfl, hk, hv⟩
    · exact h.items p hp hne
  · rw [dget_dset_ne h1]; exact h.stream
  · rw [dget_dset_ne h2, dget_dset_ne h3]; exact h.filter

theorem Fine.chunks {d : List (Key × Obj)} (h : Fine d) {st : Obj} (hs : streamParts st = true) : Fine (dset kStream st d) := by
  refine ⟨?_, ?_, ?_⟩
  · intro p hp hne
    rcases dget_dset_mem hp with rfl | hp
    · exact absurd rfl hne
    · exact h.items p hp hne
  · rw [dget_dset_self]; intro st' e; cases e; exact hs
  · rw [dget_dset_ne (by simp [kStream, kFilter]), dget_dset_ne (by simp [kStream, kSkip])]; exact h.filter

/-- a known entry stands for a PDF object -/
theorem Fine.get {d : List (Key × Obj)} (h : Fine d) {k : Key} {v : Obj} (hk : k ≠ kStream) (hd : dget k d = some v) : Sure v := by
  obtain ⟨-, -, -, hv⟩ := h.items _ (dget_mem hd) hk
  exact hv

theorem Fine.append {d : List (Key × Obj)} (h : Fine d) {k : Str} {v : Obj} (hk : nameChars k = true) (hv : Sure v)
    (h1 : Key.str k ≠ kStream) (h2 : Key.str k ≠ kFilter) (h3 : Key.str k ≠ kSkip) : Fine (dictAppend (.str k) v d) := by
  unfold dictAppend
  split
  · rename_i l hl
    refine h.put hk (Sure.seq.2 ?_) h1 h2 h3
    have := Sure.seq.1 (h.get h1 hl)
    intro o ho
    rcases List.mem_append.1 ho with ho | ho
    · exact this o ho
    · rw [List.mem_singleton.1 ho]; exact hv
  · exact h

theorem Fine.incr {d : List (Key × Obj)} (h : Fine d) {k : Str} (hk : nameChars k = true)
    (h1 : Key.str k ≠ kStream) (h2 : Key.str k ≠ kFilter) (h3 : Key.str k ≠ kSkip) : Fine (dictIncr (.str k) d) := by
  unfold dictIncr
  split
  · exact h.put hk (by exact rfl) h1 h2 h3
  · exact h

theorem Fine.del {d : List (Key × Obj)} (h : Fine d) {k : Key} (h1 : k ≠ kStream) (h2 : k ≠ kFilter) (h3 : k ≠ kSkip) : Fine (ddel k d) := by
  refine ⟨?_, ?_, ?_⟩
  · intro p hp hne
    exact h.items p (List.mem_filter.1 hp).1 hne
  · rw [dget_ddel_ne h1]; exact h.stream
  · rw [dget_ddel_ne h2, dget_ddel_ne h3]; exact h.filter

/-- a dict without a stream and a filter -/
theorem Fine.plain {d : List (Key × Obj)} (h : ∀ p ∈ d, ItemOk p ∧ p.1 ≠ kStream ∧ p.1 ≠ kFilter) : Fine d := by
  refine ⟨fun p hp _ => (h p hp).1, ?_, ?_⟩
  · intro st hst
    exact absurd rfl (h _ (dget_mem hst)).2.1
  · intro f hf
    exact absurd rfl (h _ (dget_mem hf)).2.2

/-! ### The objects of a document -/

/-- all objects of a document are dicts that can be written -/
structure Base.Fine (b : Base) : Prop where
  wf : b.Wf
  version : b.version.all isLatin = true
  all : ∀ n, 0 < n → n < b.count → ∃ d, b.dictAt n = some d ∧ Verif.Fine d

theorem Base.Fine.add {b : Base} (h : b.Fine) {d} (hd : Verif.Fine d) : (b.addDict d).2.Fine := by
  refine ⟨h.wf.addDict d, h.version, ?_⟩
  intro n h0 hn
  by_cases e : n = b.count
  · subst e; exact ⟨d, dictAt_add_self h.wf d, hd⟩
  · rw [dictAt_add_ne h.wf d e]
    exact h.all n h0 (by rw [addDict_count] at hn; omega)

theorem modify_version (b : Base) (id f) : (b.modify id f).version = b.version := by cases id <;> rfl
theorem modify_count' (b : Base) (id f) : (b.modify id f).count = b.count := by cases id <;> rfl

theorem Base.Fine.modify {b : Base} (h : b.Fine) (id : Nat) {f} (hf : ∀ d, Verif.Fine d → Verif.Fine (f d)) : (b.modify id f).Fine := by
  refine ⟨h.wf.modify id f, by rw [modify_version]; exact h.version, ?_⟩
  intro n h0 hn
  rw [modify_count'] at hn
  obtain ⟨d, h1, h2⟩ := h.all n h0 hn
  rw [dictAt_modify]
  split
  · rw [h1]; exact ⟨f d, rfl, hf d h2⟩
  · exact ⟨d, h1, h2⟩

theorem Base.Fine.mem {b : Base} (h : b.Fine) {o : PDFObj} (ho : o ∈ b.content) : ∃ d, o.value = .dict d ∧ Verif.Fine d := by
  obtain ⟨i, hi, rfl⟩ := List.getElem_of_mem ho
  have hw := h.wf
  unfold Base.Wf at hw
  obtain ⟨d, h1, h2⟩ := h.all (i + 1) (by omega) (by omega)
  simp only [Base.dictAt, List.getElem?_eq_getElem hi] at h1
  split at h1
  · rename_i e
    cases h1
    simp only [Option.some.injEq] at e
    exact ⟨d, by rw [e], h2⟩
  · cases h1

/-- they are written and can be read -/
theorem Base.Fine.writes {b : Base} (h : b.Fine) (ht : b.trailer = [(.str c!"Root", .ref 1)]) (flate : Bytes → Bytes) {u1 u2 : Bytes}
    (hu1 : 60 ∉ u1 ∧ 62 ∉ u1) (hu2 : 60 ∉ u2 ∧ 62 ∉ u2) :
    (∀ o ∈ b.content, readable o.value = true) ∧ (b.output flate u1 u2).err = none := by
  refine ⟨?_, ?_⟩
  · intro o ho
    obtain ⟨d, e, hd⟩ := h.mem ho
    rw [e]
    exact hd.readable
  · have hid : ∀ u : Bytes, 60 ∉ u ∧ 62 ∉ u → Sure (trailerId u) := by
      intro u hu
      unfold Sure trailerId
      show (meaning (.bytes (60 :: (u ++ [62])))).isSome = true
      simp only [meaning, meaningBytes]
      rw [if_pos]
      · rfl
      · simp [hu.1, hu.2]
    have hfine : Verif.Fine (trailerOf u1 u2 b) := by
      have hr : Verif.Fine [(.str c!"Root", .ref 1)] := by
        refine .plain ?_
        intro p hp
        rw [List.mem_singleton.1 hp]
        exact ⟨⟨_, rfl, by decide, rfl⟩, by simp [kStream], by simp [kFilter]⟩
      have hs : Verif.Fine (dset kSize (.int b.count) b.trailer) := by
        rw [ht]
        exact hr.put (by decide) (by exact rfl) (by simp [kStream]) (by simp [kFilter]) (by simp [kSkip])
      unfold trailerOf
      split
      · exact hs
      · refine hs.put (by decide) (Sure.seq.2 ?_) (by simp [kStream]) (by simp [kFilter]) (by simp [kSkip])
        intro o ho
        simp only [List.mem_cons, List.not_mem_nil, or_false] at ho
        rcases ho with rfl | rfl
        · exact hid u1 hu1
        · exact hid u2 hu2
    obtain ⟨t, ht'⟩ := hfine.parses flate
    refine output_intro h.version ?_ ht'
    intro o ho
    obtain ⟨d, e, hd⟩ := h.mem ho
    rw [e]
    exact hd.parses flate

/-! ### The page tree -/

theorem setMedia_fine {b : Base} (h : b.Fine) (id : Nat) {s : Option (Obj × Obj)} (hs : ∀ q, s = some q → Sure q.1 ∧ Sure q.2) : (setMedia b id s).Fine := by
  unfold setMedia
  split
  · rename_i w hh
    obtain ⟨h1, h2⟩ := hs _ rfl
    refine h.modify id fun d hd => hd.put (by decide) (Sure.seq.2 ?_) (by simp [kStream]) (by simp [kFilter]) (by simp [kSkip])
    intro o ho
    simp only [List.mem_cons, List.not_mem_nil, or_false] at ho
    rcases ho with rfl | rfl | rfl | rfl
    · rfl
    · rfl
    · exact h1
    · exact h2
  · exact h

theorem item_ok {k : Str} {v : Obj} (hk : nameChars k = true) (hv : Sure v) (h1 : Key.str k ≠ kStream) (h2 : Key.str k ≠ kFilter) :
    ItemOk (.str k, v) ∧ (Key.str k, v).1 ≠ kStream ∧ (Key.str k, v).1 ≠ kFilter := ⟨⟨k, rfl, hk, hv⟩, h1, h2⟩

theorem pagesNode_fine : Fine pagesNode := by
  refine .plain ?_
  simp only [pagesNode, List.forall_mem_cons, List.not_mem_nil, false_implies, implies_true, and_true]
  exact ⟨item_ok (by decide) (by exact rfl) (by simp [kStream]) (by simp [kFilter]), item_ok (by decide) (by exact rfl) (by simp [kStream]) (by simp [kFilter]),
    item_ok (by decide) (by exact rfl) (by simp [kStream]) (by simp [kFilter])⟩

theorem pagesLoop_fine : ∀ (l : List (Nat × Option (Obj × Obj))) {b : Base} (nodes : List Nat) (count : Nat), b.Fine →
    (∀ e ∈ l, ∀ q, e.2 = some q → Sure q.1 ∧ Sure q.2) → (pagesLoop b nodes count l).1.Fine := by
  intro l
  induction l with
  | nil => intro b nodes count h _; exact h
  | cons e l ih =>
    intro b nodes count h hl
    obtain ⟨id, size⟩ := e
    simp only [pagesLoop]
    refine ih _ _ ?_ fun e he => hl e (List.mem_cons_of_mem _ he)
    have h1 : (newNode (setMedia b id size) nodes count).1.Fine := by
      have := setMedia_fine h id (hl _ List.mem_cons_self)
      unfold newNode
      split
      · exact this.add pagesNode_fine
      · exact this
    refine (h1.modify _ fun d hd => hd.put (by decide) (by exact rfl) (by simp [kStream]) (by simp [kFilter]) (by simp [kSkip])).modify _ fun d hd => ?_
    exact (hd.append (by decide) (by exact rfl) (by simp [kStream]) (by simp [kFilter]) (by simp [kSkip])).incr (by decide) (by simp [kStream]) (by simp [kFilter]) (by simp [kSkip])

theorem buildPages_fine (root : Nat) : ∀ (fuel : Nat) {b b' : Base} {l}, b.Fine → (∀ e ∈ l, ∀ q, e.2 = some q → Sure q.1 ∧ Sure q.2) →
    buildPagesTree root fuel b l = .ok b' → b'.Fine
  | 0, _, _, _, _, _, h => by cases h
  | fuel + 1, b, b', l, hb, hl, h => by
    simp only [buildPagesTree] at h
    have h1 := pagesLoop_fine l [] 0 hb hl
    split at h
    · cases h
      exact h1.modify _ fun d hd => hd.put (by decide) (by exact rfl) (by simp [kStream]) (by simp [kFilter]) (by simp [kSkip])
    · refine buildPages_fine root fuel h1 ?_ h
      intro e he q hq
      obtain ⟨x, -, rfl⟩ := List.mem_map.1 he
      cases hq

/-! ### The outline -/

mutual
/-- the titles and targets can be written -/
def outlineOk : Outline → Prop
  | .node t l ch => stringChars t = true ∧ stringChars l = true ∧ outlinesOk ch
def outlinesOk : List Outline → Prop
  | [] => True
  | o :: l => outlineOk o ∧ outlinesOk l
end

theorem outlineObj_fine {b : Base} (h : b.Fine) (parent : Nat) (prev : Option Nat) {text label : Str} (ht : stringChars text = true) (hl : stringChars label = true) :
    (outlineObj b parent prev text label).2.Fine := by
  have h1 : (b.addDict [(kTitle, .str text), (kParent, .ref parent), (kDest, .str label)]).2.Fine := by
    refine h.add (.plain ?_)
    simp only [List.forall_mem_cons, List.not_mem_nil, false_implies, implies_true, and_true]
    exact ⟨item_ok (by decide) (.str ht) (by simp [kStream]) (by simp [kFilter]), item_ok (by decide) (by exact rfl) (by simp [kStream]) (by simp [kFilter]),
      item_ok (by decide) (.str hl) (by simp [kStream]) (by simp [kFilter])⟩
  unfold outlineObj
  simp only
  split
  · exact (h1.modify _ fun d hd => hd.put (by decide) (by exact rfl) (by simp [kStream]) (by simp [kFilter]) (by simp [kSkip])).modify _
      fun d hd => hd.put (by decide) (by exact rfl) (by simp [kStream]) (by simp [kFilter]) (by simp [kSkip])
  · exact h1.modify _ fun d hd => hd.put (by decide) (by exact rfl) (by simp [kStream]) (by simp [kFilter]) (by simp [kSkip])

mutual
theorem outlineItem_fine : ∀ (o : Outline) (level : Int) (parent : Nat) {b : Base} (prev : Option Nat), b.Fine → outlineOk o →
    (outlineItem level parent b prev o).2.1.Fine
  | .node text label [], level, parent, b, prev, h, ho => by
    simp only [outlineItem]
    simp only [outlineOk] at ho
    exact outlineObj_fine h parent prev ho.1 ho.2.1
  | .node text label (c :: cs), level, parent, b, prev, h, ho => by
    simp only [outlineItem]
    simp only [outlineOk] at ho
    have h1 := outlineLoop_fine (c :: cs) (level - 1) (outlineObj b parent prev text label).1 none 0 (outlineObj_fine h parent prev ho.1 ho.2.1) ho.2.2
    have h2 : ∀ (x : Int) (y : Int), ((((outlineLoop (level - 1) (outlineObj b parent prev text label).1 (outlineObj b parent prev text label).2 none 0 (c :: cs)).1.modify
        (outlineObj b parent prev text label).1 (dset kLast (.ref x))).modify (outlineObj b parent prev text label).1 (dset kCount (.int y)))).Fine :=
      fun x y => (h1.modify _ fun d hd => hd.put (by decide) (by exact rfl) (by simp [kStream]) (by simp [kFilter]) (by simp [kSkip])).modify _
        fun d hd => hd.put (by decide) (by exact rfl) (by simp [kStream]) (by simp [kFilter]) (by simp [kSkip])
    split
    · exact h2 _ _
    · exact h2 _ _
theorem outlineLoop_fine : ∀ (l : List Outline) (level : Int) (parent : Nat) {b : Base} (prev : Option Nat) (count : Nat), b.Fine → outlinesOk l →
    (outlineLoop level parent b prev count l).1.Fine
  | [], _, _, _, _, _, h, _ => by simp only [outlineLoop]; exact h
  | o :: l, level, parent, b, prev, count, h, ho => by
    simp only [outlineLoop]
    simp only [outlinesOk] at ho
    exact outlineLoop_fine l level parent _ _ (outlineItem_fine o level parent prev h ho.1) ho.2
end

theorem buildOutlines_fine (root : Nat) (level : Int) {b : Base} (h : b.Fine) {l : List Outline} (hl : outlinesOk l) : (buildOutlines root level b l).Fine := by
  unfold buildOutlines
  split
  · exact h
  · simp only
    have h1 : (b.addDict [(kType, .bytes b!"/Outlines")]).2.Fine := by
      refine h.add (.plain ?_)
      intro p hp
      rw [List.mem_singleton.1 hp]
      exact item_ok (by decide) (by exact rfl) (by simp [kStream]) (by simp [kFilter])
    have h2 := outlineLoop_fine l level (b.addDict [(kType, .bytes b!"/Outlines")]).1 none 0
      ((h1.modify root fun d hd => hd.put (k := c!"PageMode") (v := .bytes b!"/UseOutlines") (by decide) (by exact rfl) (by simp [kStream]) (by simp [kFilter]) (by simp [kSkip])).modify root
        fun d hd => hd.put (k := c!"Outlines") (v := .ref (b.addDict [(kType, .bytes b!"/Outlines")]).1) (by decide) (by exact rfl) (by simp [kStream]) (by simp [kFilter]) (by simp [kSkip])) hl
    exact (h2.modify _ fun d hd => hd.put (by decide) (by exact rfl) (by simp [kStream]) (by simp [kFilter]) (by simp [kSkip])).modify _
      fun d hd => hd.put (by decide) (by exact rfl) (by simp [kStream]) (by simp [kFilter]) (by simp [kSkip])

/-! ### The name tree -/

/-- an entry of the name tree can be written -/
def NameItem.Ok (it : NameItem) : Prop := stringChars it.lo = true ∧ stringChars it.hi = true ∧ ∀ o ∈ it.body, Sure o

/-- all objects can be written, but the last node is not complete while it is open -/
structure NameFine (field : Str) (s : NameLoop) (opened : Bool) : Prop where
  wf : s.base.Wf
  version : s.base.version.all isLatin = true
  all : ∀ n, 0 < n → n < s.base.count → (opened = true → n ≠ s.cur) → ∃ d, s.base.dictAt n = some d ∧ Fine d
  cur : opened = true → ∃ lo l, s.base.dictAt s.cur = some [(kLimits, .seq [.str lo, .other]), (.str field, .seq l)] ∧ stringChars lo = true ∧ ∀ o ∈ l, Sure o
  out : ∀ q ∈ s.out, stringChars q.2.1 = true ∧ stringChars q.2.2 = true

theorem nameOpen_fine {field : Str} (hf : Key.str field ≠ kLimits) {i : Nat} {s : NameLoop} {opened : Bool} (h : NameFine field s opened)
    (ho : i % 7 = 0 → opened = false) (ho' : i % 7 ≠ 0 → opened = true) {it : NameItem} (hit : it.Ok) : NameFine field (nameOpen (.str field) i s it) true := by
  unfold nameOpen
  split
  · rename_i hi
    have := ho hi
    subst this
    have hcount : (((s.base.addDict []).2.modify (s.base.addDict []).1 (dset kLimits (.seq [.str it.lo, .other]))).modify (s.base.addDict []).1 (dset (.str field) (.seq []))).count
        = s.base.count + 1 := by rw [modify_count', modify_count', addDict_count]
    refine ⟨((h.wf.addDict []).modify _ _).modify _ _, ?_, ?_, ?_, h.out⟩
    · simp only [modify_version]; exact h.version
    · intro n h0 hn hne
      simp only at hn hne ⊢
      rw [hcount] at hn
      have hc : n ≠ s.base.count := hne trivial
      obtain ⟨d, h1, h2⟩ := h.all n h0 (by omega) (by simp)
      refine ⟨d, ?_, h2⟩
      rw [dictAt_modify, if_neg (by exact hc), dictAt_modify, if_neg (by exact hc), dictAt_add_ne h.wf _ hc]
      exact h1
    · intro _
      refine ⟨it.lo, [], ?_, hit.1, by simp⟩
      show Base.dictAt _ s.base.count = _
      rw [dictAt_modify, if_pos (by rfl), dictAt_modify, if_pos (by rfl), dictAt_add_self h.wf]
      simp [dset, Ne.symm hf]
  · rename_i hi
    rw [ho' hi] at h
    exact h

theorem append_items {field : Str} (hf : Key.str field ≠ kLimits) (x : Obj) : ∀ (body l : List Obj),
    body.foldl (fun d v => dictAppend (.str field) v d) [(kLimits, x), (.str field, .seq l)] = [(kLimits, x), (.str field, .seq (l ++ body))]
  | [], l => by simp
  | v :: body, l => by
    rw [List.foldl_cons]
    have : dictAppend (.str field) v [(kLimits, x), (.str field, .seq l)] = [(kLimits, x), (.str field, .seq (l ++ [v]))] := by
      simp [dictAppend, dget, dset, Ne.symm hf]
    rw [this, append_items hf x body]
    simp

theorem nameAppend_fine {field : Str} (hf : Key.str field ≠ kLimits) {s : NameLoop} (h : NameFine field s true) {it : NameItem} (hit : it.Ok) :
    NameFine field (nameAppend (.str field) s it) true := by
  unfold nameAppend
  refine ⟨h.wf.modify _ _, by rw [modify_version]; exact h.version, ?_, ?_, h.out⟩
  · intro n h0 hn hne
    simp only at hn hne ⊢
    rw [modify_count'] at hn
    rw [dictAt_modify, if_neg (hne trivial)]
    exact h.all n h0 hn fun _ => hne trivial
  · intro _
    obtain ⟨lo, l, h1, h2, h3⟩ := h.cur rfl
    refine ⟨lo, l ++ it.body, ?_, h2, ?_⟩
    · simp only
      rw [dictAt_modify, if_pos rfl, h1, Option.map_some, append_items hf]
    · intro o ho
      rcases List.mem_append.1 ho with ho | ho
      · exact h3 o ho
      · exact hit.2.2 o ho

theorem nameClose_fine {field : Str} (hn : nameChars field = true) (h1 : Key.str field ≠ kStream) (h2 : Key.str field ≠ kFilter) {len i : Nat} {s : NameLoop}
    (h : NameFine field s true) {it : NameItem} (hit : it.Ok) : NameFine field (nameClose len i s it) (decide ¬((i + 1) % 7 = 0 ∨ i + 1 = len)) := by
  unfold nameClose
  split
  · rename_i hc
    simp only [hc, not_true_eq_false, decide_false]
    obtain ⟨lo, l, k1, k2, k3⟩ := h.cur rfl
    have hat : (s.base.modify s.cur (setHi it.hi)).dictAt s.cur = some [(kLimits, .seq [.str lo, .str it.hi]), (.str field, .seq l)] := by
      rw [dictAt_modify, if_pos rfl, k1, Option.map_some]
      simp [setHi, dget, dset]
    refine ⟨h.wf.modify _ _, by rw [modify_version]; exact h.version, ?_, by simp, ?_⟩
    · intro n h0 hn' _
      simp only at hn' ⊢
      rw [modify_count'] at hn'
      by_cases e : n = s.cur
      · subst e
        refine ⟨_, hat, .plain ?_⟩
        simp only [List.forall_mem_cons, List.not_mem_nil, false_implies, implies_true, and_true]
        refine ⟨item_ok (by decide) (Sure.seq.2 ?_) (by simp [kStream]) (by simp [kFilter]), item_ok hn (Sure.seq.2 k3) h1 h2⟩
        intro o ho
        simp only [List.mem_cons, List.not_mem_nil, or_false] at ho
        rcases ho with rfl | rfl
        · exact .str k2
        · exact .str hit.2.1
      · rw [dictAt_modify, if_neg e]
        exact h.all n h0 hn' fun _ => e
    · intro q hq
      simp only at hq
      rcases List.mem_append.1 hq with hq | hq
      · exact h.out q hq
      · rw [List.mem_singleton.1 hq]
        have : limitsAt (s.base.modify s.cur (setHi it.hi)) s.cur = (lo, it.hi) := by
          simp [limitsAt, hat, dget]
        simp only [this]
        exact ⟨k2, hit.2.1⟩
  · rename_i hc
    simp only [hc, not_false_eq_true, decide_true]
    exact h

theorem nameLoop_fine {field : Str} (hn : nameChars field = true) (h1 : Key.str field ≠ kStream) (h2 : Key.str field ≠ kFilter) (hf : Key.str field ≠ kLimits) (len : Nat) :
    ∀ (l : List NameItem) (i : Nat) {s : NameLoop}, i + l.length = len → NameFine field s (decide (i % 7 ≠ 0 ∧ i < len)) → (∀ it ∈ l, it.Ok) →
    NameFine field (nameLoop (.str field) len i s l) false := by
  intro l
  induction l with
  | nil =>
    intro i s hi h _
    simp only [List.length_nil, Nat.add_zero] at hi
    subst hi
    simpa [nameLoop] using h
  | cons it l ih =>
    intro i s hi h hl
    simp only [List.length_cons] at hi
    simp only [nameLoop]
    refine ih (i + 1) (by omega) ?_ fun x hx => hl x (List.mem_cons_of_mem _ hx)
    have hit := hl it List.mem_cons_self
    have hlt : i < len := by omega
    have h3 := nameClose_fine hn h1 h2 (len := len) (i := i) (nameAppend_fine hf (nameOpen_fine hf (i := i) h (by intro e; simp [e]) (by intro e; simp [e, hlt]) hit) hit) hit
    have : (decide ((i + 1) % 7 ≠ 0 ∧ i + 1 < len)) = decide ¬((i + 1) % 7 = 0 ∨ i + 1 = len) := by
      apply decide_eq_decide.2
      constructor
      · rintro ⟨a, b⟩ (c | c)
        · exact a c
        · omega
      · intro a
        refine ⟨fun c => a (.inl c), ?_⟩
        have : i + 1 ≠ len := fun c => a (.inr c)
        omega
    rw [this]
    exact h3

theorem setDests_fine {id : Nat} {d : List (Key × Obj)} (h : Fine d) : Fine (setDests id d) := by
  have hput : ∀ e, Sure (.dict e) → Fine (dset kNames (.dict (dset kDests (.ref id) e)) d) := by
    intro e he
    refine h.put (by decide) (Sure.dict.2 ?_) (by simp [kStream]) (by simp [kFilter]) (by simp [kSkip])
    obtain ⟨h1, h2⟩ := Sure.dict.1 he
    constructor
    · intro p hp
      rcases dget_dset_mem hp with rfl | hp
      · exact ⟨_, rfl, by decide, rfl⟩
      · exact h1 p hp
    · intro p hp
      rcases dget_dset_mem hp with rfl | hp
      · simp [kStream, kDests]
      · exact h2 p hp
  unfold setDests
  split
  · rename_i e he
    exact hput e (h.get (by simp [kStream, kNames]) he)
  · exact hput [] (Sure.dict.2 ⟨by simp, by simp⟩)
  · exact h

theorem buildNames_fine (root : Nat) : ∀ (fuel : Nat) {field : Str} {b b' : Base} {l : List NameItem}, b.Fine →
    nameChars field = true → Key.str field ≠ kStream → Key.str field ≠ kFilter → Key.str field ≠ kLimits → (∀ it ∈ l, it.Ok) →
    buildNameTree root fuel (.str field) b l = .ok b' → b'.Fine
  | 0, _, _, _, _, _, _, _, _, _, _, h => by cases h
  | fuel + 1, field, b, b', l, hb, n1, n2, n3, n4, hl, h => by
    simp only [buildNameTree] at h
    have h1 := nameLoop_fine n1 n2 n3 n4 l.length l 0 (s := ⟨b, 0, 0, []⟩) (by simp)
      ⟨hb.wf, hb.version, fun n h0 hn _ => hb.all n h0 hn, by simp, by simp⟩ hl
    have h2 : (nameLoop (.str field) l.length 0 ⟨b, 0, 0, []⟩ l).base.Fine := ⟨h1.wf, h1.version, fun n h0 hn => h1.all n h0 hn (by simp)⟩
    split at h
    · cases h
      exact (h2.modify _ fun d hd => hd.del (by simp [kStream, kLimits]) (by simp [kFilter, kLimits]) (by simp [kSkip, kLimits])).modify _ fun d hd => setDests_fine hd
    · refine buildNames_fine root fuel (field := c!"Kids") h2 (by decide) (by simp [kStream]) (by simp [kFilter]) (by simp [kLimits]) ?_ h
      intro it hit
      obtain ⟨q, hq, rfl⟩ := List.mem_map.1 hit
      obtain ⟨a, b⟩ := h1.out q hq
      refine ⟨a, b, ?_⟩
      intro o ho
      rw [List.mem_singleton.1 ho]
      rfl

theorem buildDests_fine (root fuel : Nat) {b b' : Base} (hb : b.Fine) {dests : List (Str × Obj)} (hd : ∀ e ∈ dests, stringChars e.1 = true ∧ Sure e.2)
    (h : buildDests root fuel b dests = .ok b') : b'.Fine := by
  unfold buildDests at h
  simp only at h
  split at h
  · cases h; exact hb
  · refine buildNames_fine root fuel (field := c!"Names") hb (by decide) (by simp [kStream]) (by simp [kFilter]) (by simp [kLimits]) ?_ h
    intro it hit
    obtain ⟨k, hk, rfl⟩ := List.mem_map.1 hit
    have hk' : k ∈ dests.map Prod.fst := (List.mergeSort_perm _ _).mem_iff.1 hk
    obtain ⟨e, he, rfl⟩ := List.mem_map.1 hk'
    have hs := (hd e he).1
    refine ⟨hs, hs, ?_⟩
    intro o ho
    simp only [List.mem_cons, List.not_mem_nil, or_false] at ho
    rcases ho with rfl | rfl
    · exact .str hs
    · cases hg : dget e.1 dests with
      | none => rw [dget_eq_none] at hg; exact absurd hk' hg
      | some v => exact (hd _ (dget_mem hg)).2

end Verif
