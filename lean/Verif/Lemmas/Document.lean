import Verif.Spec.Document
import Verif.Lemmas.Range
/-! What a run of a document leaves behind, page by page. -/
namespace Verif
open Spec

variable {κ : Type}

/-- the steps of adding a page -/
theorem docPage_ok {E : DocEnv κ} {D : DocDefs} {sec : Nat} {style : SecStyle} {running : List Str} {s s' : DocSt κ} {fin : Bool}
    (h : docPage E D sec style running s = .ok (s', fin)) :
    ∃ setup boxes p0 number placed p1 rest p2,
      s.setup.setup E.float (perPageArgs s.pages.length D.perPage (⟨style.size, style.rotate, style.margin⟩, setUpdate [] running)).1 = .ok setup ∧
      needSides setup.margin = .ok () ∧
      setRunning D.secs setup.size.1 setup.size.2 setup.margin
        (E.order (perPageArgs s.pages.length D.perPage (⟨style.size, style.rotate, style.margin⟩, setUpdate [] running)).2) = .ok boxes ∧
      Page.ofMargins (E.newId s.rest) setup.size.1 setup.size.2 setup.margin = .ok p0 ∧
      pageNumber s.roman s.offset s.pages.length = .ok number ∧
      runAll E.draw boxes p0 = .ok (placed, p1) ∧
      E.add s.rest p1.goToBeginning = .ok (rest, p2, fin) ∧
      s' = { s with setup := setup, pages := s.pages ++ [⟨p2, number, placed, sec⟩], rest := rest } := by
  unfold docPage at h
  simp only at h
  split at h
  · cases h
  rename_i setup h1
  split at h
  · cases h
  rename_i u h2
  split at h
  · cases h
  rename_i boxes h3
  split at h
  · cases h
  rename_i p0 h4
  split at h
  · cases h
  rename_i number h5
  split at h
  · cases h
  rename_i placed p1 h6
  split at h
  · cases h
  rename_i rest p2 fin' h7
  simp only [Except.ok.injEq, Prod.mk.injEq] at h
  obtain ⟨rfl, rfl⟩ := h
  exact ⟨setup, boxes, p0, number, placed, p1, rest, p2, h1, h2, h3, h4, h5, h6, h7, rfl⟩

/-- page `n` of the result was added in a state with the pages before it -/
def AddedBy (P : PageSetup → Prop) (E : DocEnv κ) (D : DocDefs) (s' : DocSt κ) (n sec : Nat) (style : SecStyle) (running : List Str) (offset : Int) (roman : Bool) : Prop :=
  ∃ s1 s2 fin, docPage E D sec style running s1 = .ok (s2, fin) ∧ s1.pages = s'.pages.take n ∧ s2.pages = s'.pages.take (n + 1) ∧
    s1.offset = offset ∧ s1.roman = roman ∧ P s1.setup

theorem AddedBy.of_prefix {P : PageSetup → Prop} {E : DocEnv κ} {D : DocDefs} {s s' : DocSt κ} {n sec : Nat} {style : SecStyle} {running : List Str} {offset : Int}
    {roman : Bool} (h : AddedBy P E D s n sec style running offset roman) (hn : n < s.pages.length) (hp : s.pages <+: s'.pages) :
    AddedBy P E D s' n sec style running offset roman := by
  obtain ⟨s1, s2, fin, h1, h2, h3, h4⟩ := h
  obtain ⟨t, ht⟩ := hp
  refine ⟨s1, s2, fin, h1, ?_, ?_, h4⟩
  · rw [h2, ← ht, List.take_append_of_le_length (by omega)]
  · rw [h3, ← ht, List.take_append_of_le_length (by omega)]

/-- what is known of the page settings is not changed by adding a page -/
def Stays (P : PageSetup → Prop) (E : DocEnv κ) (D : DocDefs) (style : SecStyle) : Prop :=
  ∀ (n : Nat) (running : List Str) (s s' : PageSetup),
    P s → s.setup E.float (perPageArgs n D.perPage (⟨style.size, style.rotate, style.margin⟩, running)).1 = .ok s' → P s'

/-- the pages of a section -/
theorem docPages_ok {P : PageSetup → Prop} {E : DocEnv κ} {D : DocDefs} {sec : Nat} {style : SecStyle} {running : List Str} (hP : Stays P E D style) :
    ∀ (fuel : Nat) {s s' : DocSt κ}, docPages E D sec style running fuel s = .ok s' → P s.setup →
      P s'.setup ∧ s'.offset = s.offset ∧ s'.roman = s.roman ∧
      ∃ ps, s'.pages = s.pages ++ ps ∧ ps ≠ [] ∧ (∀ p ∈ ps, p.sec = sec) ∧
        ∀ n, s.pages.length ≤ n → n < s'.pages.length → AddedBy P E D s' n sec style running s.offset s.roman := by
  intro fuel
  induction fuel with
  | zero => intro s s' h; cases h
  | succ fuel ih =>
    intro s s' h hs
    unfold docPages at h
    split at h
    · cases h
    · rename_i s1 h1
      simp only [Except.ok.injEq] at h
      subst h
      obtain ⟨setup, boxes, p0, number, placed, p1, rest, p2, hset, _, _, _, _, _, _, rfl⟩ := docPage_ok h1
      refine ⟨hP _ _ _ _ hs hset, rfl, rfl, [_], rfl, by simp, by simp, ?_⟩
      intro n hn hn'
      simp only [List.length_append, List.length_cons, List.length_nil] at hn'
      have : n = s.pages.length := by omega
      subst this
      exact ⟨s, _, _, h1, by simp, by rw [List.take_of_length_le (by simp)], rfl, rfl, hs⟩
    · rename_i s1 h1
      obtain ⟨setup, boxes, p0, number, placed, p1, rest, p2, hset, _, _, _, _, _, _, rfl⟩ := docPage_ok h1
      obtain ⟨e0, e1, e2, ps, hps, hne, hsec, hadd⟩ := ih h (hP _ _ _ _ hs hset)
      refine ⟨e0, e1, e2, ⟨p2, number, placed, sec⟩ :: ps, by rw [hps]; simp, by simp, ?_, ?_⟩
      · intro p hp
        rcases List.mem_cons.1 hp with rfl | hp
        · rfl
        · exact hsec p hp
      · intro n hn hn'
        by_cases hc : n = s.pages.length
        · subst hc
          refine ⟨s, _, _, h1, ?_, ?_, rfl, rfl, hs⟩
          · rw [hps]; simp
          · rw [hps, List.take_append_of_le_length (by simp), List.take_of_length_le (by simp)]
        · exact hadd n (by simp; omega) hn'

/-- the offset of the numbers of a section that starts after `start` pages -/
def secOffset (style : SecStyle) (start : Nat) (old : Int) : Int :=
  if style.reset.getD false then -(start : Int) else style.offset.getD old

/-- the sections of a document, in order: each has its own pages, which follow those of the sections before it -/
inductive Sections (P : PageSetup → Prop) (E : DocEnv κ) (D : DocDefs) (s' : DocSt κ) : Nat → List DocSec → Nat → Int → Bool → Prop
  | nil {sec start : Nat} {offset : Int} {roman : Bool} : start = s'.pages.length → Sections P E D s' sec [] start offset roman
  | cons {sec start stop : Nat} {offset : Int} {roman : Bool} {d : DocSec} {l : List DocSec} :
      start < stop → stop ≤ s'.pages.length →
      (∀ n, start ≤ n → n < stop → AddedBy P E D s' n sec (D.style.update d.style) d.running
        (secOffset (D.style.update d.style) start offset) ((D.style.update d.style).roman.getD roman)) →
      (∀ n, start ≤ n → n < stop → (s'.pages[n]?).map DPage.sec = some sec) →
      Sections P E D s' (sec + 1) l stop (secOffset (D.style.update d.style) start offset) ((D.style.update d.style).roman.getD roman) →
      Sections P E D s' sec (d :: l) start offset roman

theorem docRun_prefix {P : PageSetup → Prop} {E : DocEnv κ} {D : DocDefs} {fuel : Nat} : ∀ (l : List DocSec) {sec : Nat} {s s' : DocSt κ},
    docRun E D fuel sec l s = .ok s' → (∀ d ∈ l, Stays P E D (D.style.update d.style)) → P s.setup → s.pages <+: s'.pages ∧ Sections P E D s' sec l s.pages.length s.offset s.roman := by
  intro l
  induction l with
  | nil =>
    intro sec s s' h _ _
    simp only [docRun, Except.ok.injEq] at h
    subst h
    exact ⟨List.prefix_rfl, .nil rfl⟩
  | cons d l ih =>
    intro sec s s' h hP hs
    simp only [docRun] at h
    split at h
    · cases h
    rename_i s1 h1
    unfold docSection at h1
    simp only at h1
    obtain ⟨e0, e1, e2, ps, hps, hne, hsec, hadd⟩ := docPages_ok (hP d (by simp)) fuel h1 hs
    obtain ⟨hpre, hsecs⟩ := ih h (fun d hd => hP d (by simp [hd])) e0
    simp only at e1 e2 hps hadd
    have hlen : s.pages.length < s1.pages.length := by
      rw [hps, List.length_append]
      have := List.length_pos_iff.2 hne
      omega
    refine ⟨(List.prefix_append _ _).trans (hps ▸ hpre), ?_⟩
    refine .cons (stop := s1.pages.length) hlen hpre.length_le ?_ ?_ ?_
    · intro n h2 h3
      exact (hadd n h2 h3).of_prefix h3 hpre
    · intro n h2 h3
      obtain ⟨t, ht⟩ := hpre
      rw [← ht, List.getElem?_append_left h3, hps, List.getElem?_append_right h2]
      have h4 : n - s.pages.length < ps.length := by
        rw [hps, List.length_append] at h3
        omega
      rw [List.getElem?_eq_getElem h4]
      simp [hsec _ (List.getElem_mem h4)]
    · rw [e1, e2] at hsecs
      exact hsecs

theorem Sections.find {P : PageSetup → Prop} {E : DocEnv κ} {D : DocDefs} {s' : DocSt κ} {sec : Nat} {l : List DocSec} {start : Nat} {offset : Int} {roman : Bool}
    (h : Sections P E D s' sec l start offset roman) {n : Nat} (h1 : start ≤ n) (h2 : n < s'.pages.length) :
    ∃ i d st off rom, l[i]? = some d ∧ start ≤ st ∧ st ≤ n ∧ (∀ m, st ≤ m → m ≤ n → (s'.pages[m]?).map DPage.sec = some (sec + i)) ∧
      (∀ m, start ≤ m → m < st → ∃ j, j < i ∧ (s'.pages[m]?).map DPage.sec = some (sec + j)) ∧
      (∀ m, st ≤ m → m ≤ n → AddedBy P E D s' m (sec + i) (D.style.update d.style) d.running (secOffset (D.style.update d.style) st off)
        ((D.style.update d.style).roman.getD rom)) ∧
      ((∀ d ∈ l, (D.style.update d.style).offset = none ∧ (D.style.update d.style).reset.getD false = false) → off = offset) := by
  induction h with
  | nil h => omega
  | @cons sec start stop offset roman d l h3 h4 h5 h6 _ ih =>
    by_cases hc : n < stop
    · exact ⟨0, d, start, offset, roman, rfl, Nat.le_refl _, h1, fun m a b => h6 m a (by omega), fun m a b => by omega, fun m a b => h5 m a (by omega), fun _ => rfl⟩
    · obtain ⟨i, d', st, off, rom, a1, a2, a3, a4, a5, a6, a7⟩ := ih (by omega)
      refine ⟨i + 1, d', st, off, rom, by simpa using a1, by omega, a3, ?_, ?_, ?_, ?_⟩
      · intro m b1 b2
        rw [a4 m b1 b2]
        congr 1; omega
      · intro m b1 b2
        by_cases hm : m < stop
        · exact ⟨0, by omega, h6 m b1 hm⟩
        · obtain ⟨j, c1, c2⟩ := a5 m (by omega) b2
          exact ⟨j + 1, by omega, by rw [c2]; congr 1; omega⟩
      · intro m b1 b2
        rw [show sec + (i + 1) = sec + 1 + i by omega]
        exact a6 m b1 b2
      · intro h
        rw [a7 fun d hd => h d (by simp [hd])]
        have := h d (by simp)
        simp [secOffset, this.1, this.2]

/-- the steps of adding page `n` -/
theorem AddedBy.steps {P : PageSetup → Prop} {E : DocEnv κ} {D : DocDefs} {s' : DocSt κ} {n sec : Nat} {style : SecStyle} {running : List Str} {offset : Int}
    {roman : Bool} (h : AddedBy P E D s' n sec style running offset roman) {dp : DPage} (hn : s'.pages[n]? = some dp) :
    ∃ t setup boxes p0 p1 k rest fin, P t ∧
      t.setup E.float (perPageArgs n D.perPage (⟨style.size, style.rotate, style.margin⟩, setUpdate [] running)).1 = .ok setup ∧
      needSides setup.margin = .ok () ∧
      setRunning D.secs setup.size.1 setup.size.2 setup.margin
        (E.order (perPageArgs n D.perPage (⟨style.size, style.rotate, style.margin⟩, setUpdate [] running)).2) = .ok boxes ∧
      Page.ofMargins (E.newId k) setup.size.1 setup.size.2 setup.margin = .ok p0 ∧
      pageNumber roman offset n = .ok dp.number ∧
      runAll E.draw boxes p0 = .ok (dp.placed, p1) ∧
      E.add k p1.goToBeginning = .ok (rest, dp.page, fin) := by
  obtain ⟨s1, s2, fin, hpage, hp1, hp2, rfl, rfl, hP⟩ := h
  obtain ⟨setup, boxes, p0, number, placed, p1, rest, p2, a1, a2, a3, a4, a5, a6, a7, rfl⟩ := docPage_ok hpage
  have hlt : n < s'.pages.length := by
    rcases Nat.lt_or_ge n s'.pages.length with h | h
    · exact h
    · rw [List.getElem?_eq_none h] at hn; cases hn
  have hlen : s1.pages.length = n := by rw [hp1, List.length_take]; omega
  have hdp : dp = ⟨p2, number, placed, sec⟩ := by
    have h1 : s'.pages[n]? = (s1.pages ++ [(⟨p2, number, placed, sec⟩ : DPage)])[n]? := by
      simp only at hp2
      rw [hp2, List.getElem?_take]
      simp
    rw [hn, ← hlen, List.getElem?_append_right (Nat.le_refl _)] at h1
    simp only [Nat.sub_self, List.getElem?_cons_zero, Option.some.injEq] at h1
    exact h1
  subst hdp
  rw [hlen] at a1 a3 a5
  exact ⟨s1.setup, setup, boxes, p0, p1, s1.rest, rest, fin, hP, a1, a2, a3, a4, a5, a6, a7⟩

/-- what is known of a page of the result of a run -/
theorem docRun_find {P : PageSetup → Prop} {E : DocEnv κ} {D : DocDefs} {fuel : Nat} {secs : List DocSec} {s s' : DocSt κ} (hnew : s.pages = [])
    (hrun : docRun E D fuel 0 secs s = .ok s') (hstay : ∀ d ∈ secs, Stays P E D (D.style.update d.style)) (hs : P s.setup) {n : Nat} {dp : DPage}
    (hn : s'.pages[n]? = some dp) :
    ∃ d st off rom, secs[dp.sec]? = some d ∧ st ≤ n ∧ n < s'.pages.length ∧ (∀ m, st ≤ m → m ≤ n → (s'.pages[m]?).map DPage.sec = some dp.sec) ∧
      (∀ m, m < st → ∃ j, j < dp.sec ∧ (s'.pages[m]?).map DPage.sec = some j) ∧
      (∀ m, st ≤ m → m ≤ n → AddedBy P E D s' m dp.sec (D.style.update d.style) d.running (secOffset (D.style.update d.style) st off)
        ((D.style.update d.style).roman.getD rom)) ∧
      ((∀ d ∈ secs, (D.style.update d.style).offset = none ∧ (D.style.update d.style).reset.getD false = false) → off = s.offset) := by
  obtain ⟨_, hsecs⟩ := docRun_prefix secs hrun hstay hs
  rw [hnew] at hsecs
  have hlt : n < s'.pages.length := by
    rcases Nat.lt_or_ge n s'.pages.length with h | h
    · exact h
    · rw [List.getElem?_eq_none h] at hn; cases hn
  obtain ⟨i, d, st, off, rom, hd, _, hst, hsec, hbefore, hby, hoff⟩ := hsecs.find (Nat.zero_le n) hlt
  simp only [Nat.zero_add] at hsec hbefore hby
  have hdi : dp.sec = i := by
    have := hsec n hst (Nat.le_refl n)
    rw [hn] at this
    simpa using this
  subst hdi
  exact ⟨d, st, off, rom, hd, hst, hlt, hsec, fun m hm => hbefore m (Nat.zero_le m) hm, hby, hoff⟩

theorem sameSheet_rfl (p : Page) : SameSheet p p := ⟨rfl, rfl, rfl, rfl, rfl, rfl⟩

theorem sameSheet_trans {p q r : Page} (h : SameSheet p q) (h' : SameSheet q r) : SameSheet p r :=
  ⟨h'.1.trans h.1, h'.2.1.trans h.2.1, h'.2.2.1.trans h.2.2.1, h'.2.2.2.1.trans h.2.2.2.1, h'.2.2.2.2.1.trans h.2.2.2.2.1,
    h'.2.2.2.2.2.trans h.2.2.2.2.2⟩

theorem posSize_sheet (p : Page) (b : RunBox) : SameSheet p (p.posSize b).1 := by
  unfold Page.posSize
  cases b.x <;> cases b.y <;> exact ⟨rfl, rfl, rfl, rfl, rfl, rfl⟩

theorem runAll_sheet {draw : PlacedBox → Page → Except PyErr Page} (hd : ∀ b p q, draw b p = .ok q → SameSheet p q) :
    ∀ (l : List RunBox) {p q : Page} {bs : List PlacedBox}, runAll draw l p = .ok (bs, q) → SameSheet p q := by
  intro l
  induction l with
  | nil =>
    intro p q bs h
    simp only [runAll, Except.ok.injEq, Prod.mk.injEq] at h
    obtain ⟨_, rfl⟩ := h
    exact sameSheet_rfl _
  | cons b l ih =>
    intro p q bs h
    simp only [runAll] at h
    split at h
    · cases h
    rename_i r hr
    split at h
    · cases h
    rename_i bs' r' hr'
    simp only [Except.ok.injEq, Prod.mk.injEq] at h
    obtain ⟨_, rfl⟩ := h
    exact sameSheet_trans (sameSheet_trans (posSize_sheet p b) (hd _ _ _ hr)) (ih hr')

theorem onPage_iff {d : PerPage} (h : ∀ r ∈ d.pages, r.step ≠ 0) (n : Nat) : multiContains d.pages n = true ↔ OnPage d n := by
  simp only [multiContains, List.any_eq_true, OnPage]
  constructor
  · rintro ⟨r, h1, h2⟩
    exact ⟨r, h1, (contains_iff (h r h1) n).1 h2⟩
  · rintro ⟨r, h1, h2⟩
    exact ⟨r, h1, (contains_iff (h r h1) n).2 h2⟩

/-- the setting of a page, computed from the first entry to the last -/
def settle {α : Type} (n : Nat) (f : PerPage → Option α) (l : List PerPage) (own : Option α) : Option α :=
  l.foldl (fun a d => if multiContains d.pages n then f d <|> a else a) own

theorem settle_at {α : Type} {n : Nat} {f : PerPage → Option α} : ∀ (l : List PerPage) (own : Option α),
    (∀ d ∈ l, ∀ r ∈ d.pages, r.step ≠ 0) → AtPage n f l own (settle n f l own) := by
  intro l
  induction l with
  | nil => intro own _; exact .inr ⟨by simp, rfl⟩
  | cons d l ih =>
    intro own h
    have hd := onPage_iff (h d (by simp)) n
    have h' : ∀ d ∈ l, ∀ r ∈ d.pages, r.step ≠ 0 := fun e he => h e (by simp [he])
    have hs : settle n f (d :: l) own = settle n f l (if multiContains d.pages n then f d <|> own else own) := rfl
    rcases ih (if multiContains d.pages n then f d <|> own else own) h' with ⟨l1, e, l2, rfl, a1, a2, a3, a4⟩ | ⟨a1, a2⟩
    · rw [hs]
      exact .inl ⟨d :: l1, e, l2, rfl, a1, a2, a3, a4⟩
    · rw [hs, a2]
      by_cases hc : multiContains d.pages n = true
      · rw [if_pos hc]
        cases hf : f d with
        | some v => exact .inl ⟨[], d, l, rfl, hd.1 hc, hf, rfl, a1⟩
        | none =>
          refine .inr ⟨?_, rfl⟩
          intro e he ho
          rcases List.mem_cons.1 he with rfl | he
          · exact hf
          · exact a1 e he ho
      · rw [if_neg hc]
        refine .inr ⟨?_, rfl⟩
        intro e he ho
        rcases List.mem_cons.1 he with rfl | he
        · exact absurd (hd.2 ho) hc
        · exact a1 e he ho

/-- a page has one setting -/
theorem atPage_unique {α : Type} {n : Nat} {f : PerPage → Option α} {l : List PerPage} {own v w : Option α}
    (h : AtPage n f l own v) (h' : AtPage n f l own w) : v = w := by
  induction l with
  | nil =>
    rcases h with ⟨l1, d, l2, h, _⟩ | ⟨_, h⟩
    · cases l1 <;> cases h
    rcases h' with ⟨l1, d, l2, h', _⟩ | ⟨_, h'⟩
    · cases l1 <;> cases h'
    rw [h, h']
  | cons e l ih =>
    by_cases hn : ∀ d ∈ l, OnPage d n → f d = none
    · have aux : ∀ {x : Option α}, AtPage n f (e :: l) own x → (OnPage e n ∧ (f e).isSome ∧ x = f e) ∨ ((OnPage e n → f e = none) ∧ x = own) := by
        intro x hx
        rcases hx with ⟨l1, d, l2, hl, h1, h2, h3, h4⟩ | ⟨h1, h2⟩
        · cases l1 with
          | nil =>
            simp only [List.nil_append, List.cons.injEq] at hl
            obtain ⟨rfl, rfl⟩ := hl
            exact .inl ⟨h1, h2 ▸ h3, h2.symm⟩
          | cons a l1 =>
            simp only [List.cons_append, List.cons.injEq] at hl
            obtain ⟨rfl, rfl⟩ := hl
            rw [hn d (by simp) h1] at h2
            subst h2
            cases h3
        · exact .inr ⟨h1 e (by simp), h2⟩
      rcases aux h with ⟨a1, a2, a3⟩ | ⟨a1, a2⟩ <;> rcases aux h' with ⟨b1, b2, b3⟩ | ⟨b1, b2⟩
      · rw [a3, b3]
      · rw [b1 a1] at a2; cases a2
      · rw [a1 b1] at b2; cases b2
      · rw [a2, b2]
    · have aux : ∀ {x : Option α}, AtPage n f (e :: l) own x → AtPage n f l own x := by
        intro x hx
        rcases hx with ⟨l1, d, l2, hl, h1, h2, h3, h4⟩ | ⟨h1, h2⟩
        · cases l1 with
          | nil =>
            simp only [List.nil_append, List.cons.injEq] at hl
            obtain ⟨rfl, rfl⟩ := hl
            exact absurd h4 hn
          | cons a l1 =>
            simp only [List.cons_append, List.cons.injEq] at hl
            obtain ⟨rfl, rfl⟩ := hl
            exact .inl ⟨l1, d, l2, rfl, h1, h2, h3, h4⟩
        · exact absurd (fun d hd => h1 d (by simp [hd])) hn
      exact ih (aux h) (aux h')

theorem perPage_args (n : Nat) : ∀ (l : List PerPage) (a : PageArgs) (s : List Str),
    (perPageArgs n l (a, s)).1 = ⟨settle n (fun d => d.style.bind PageArgs.size) l a.size,
      settle n (fun d => d.style.bind PageArgs.rotate) l a.rotate, settle n (fun d => d.style.bind PageArgs.margin) l a.margin⟩ := by
  intro l
  induction l with
  | nil => intro a s; rfl
  | cons d l ih =>
    intro a s
    simp only [perPageArgs, settle, List.foldl_cons]
    by_cases hc : multiContains d.pages n = true
    · simp only [hc, if_true]
      rw [ih]
      unfold PerPage.args
      cases d.style with
      | none => simp [settle]
      | some t => rfl
    · simp only [hc, if_false, Bool.false_eq_true]
      exact ih a s

theorem setup_ok {pf : Str → Option Rat} {s s' : PageSetup} {a : PageArgs} (h : s.setup pf a = .ok s') :
    SizeIs s a.size s'.width s'.height ∧ s'.rotate = a.rotate.getD s.rotate ∧ MarginIs pf s a.margin s'.margin := by
  unfold PageSetup.setup at h
  split at h
  · cases h
  rename_i wh hw
  have hsize : SizeIs s a.size wh.1 wh.2 := by
    cases hz : a.size with
    | none =>
      rw [hz] at hw
      simp only [sizeArg, Except.ok.injEq] at hw
      subst hw
      exact ⟨rfl, rfl⟩
    | some z =>
      rw [hz] at hw
      simp only [sizeArg, sizePair] at hw
      split at hw
      · rename_i w h' he
        simp only [Except.ok.injEq] at hw
        subst hw
        exact he
      · cases hw
      · cases hw
  split at h
  · rename_i hm
    simp only [Except.ok.injEq] at h
    subst h
    rw [hm]
    exact ⟨hsize, rfl, rfl⟩
  · rename_i m hm
    split at h
    · cases h
    rename_i d hd
    simp only [Except.ok.injEq] at h
    subst h
    rw [hm]
    exact ⟨hsize, rfl, hd⟩

theorem side_ok {m : List (Str × Rat)} {s : Str} {q : Rat} (h : side m s = .ok q) : dget s m = some q := by
  unfold side at h
  split at h
  · simp only [Except.ok.injEq] at h
    subst h
    assumption
  · cases h

theorem needSides_ok {m : List (Str × Rat)} (h : needSides m = .ok ()) :
    ∃ l r t b, dget c!"left" m = some l ∧ dget c!"right" m = some r ∧ dget c!"top" m = some t ∧ dget c!"bottom" m = some b := by
  unfold needSides at h
  cases h1 : side m c!"left" with
  | error e => rw [h1] at h; cases h
  | ok l =>
    cases h2 : side m c!"right" with
    | error e => rw [h1, h2] at h; cases h
    | ok r =>
      cases h3 : side m c!"top" with
      | error e => rw [h1, h2, h3] at h; cases h
      | ok t =>
        cases h4 : side m c!"bottom" with
        | error e => rw [h1, h2, h3, h4] at h; cases h
        | ok b => exact ⟨l, r, t, b, side_ok h1, side_ok h2, side_ok h3, side_ok h4⟩

/-- a page made from margins with all four sides has these margins -/
def OfMargins (m : List (Str × Rat)) (p : Page) : Prop :=
  dget c!"top" m = some p.marginTop ∧ dget c!"bottom" m = some p.marginBottom ∧
    dget c!"left" m = some p.marginLeft ∧ dget c!"right" m = some p.marginRight

theorem ofMargins_ok {id : Nat} {w h : Rat} {m : List (Str × Rat)} {p : Page} (hm : needSides m = .ok ()) (hp : Page.ofMargins id w h m = .ok p) :
    p.width = w ∧ p.height = h ∧ OfMargins m p ∧ p.stream = [] := by
  obtain ⟨l, r, t, b, h1, h2, h3, h4⟩ := needSides_ok hm
  unfold Page.ofMargins at hp
  split at hp
  · simp only [Except.ok.injEq, h1, h2, h3, h4, Option.getD_some] at hp
    subst hp
    exact ⟨rfl, rfl, ⟨h3, h4, h1, h2⟩, rfl⟩
  · cases hp

theorem ofMargins_sheet {m : List (Str × Rat)} {p q : Page} (h : OfMargins m p) (hs : SameSheet p q) : OfMargins m q := by
  obtain ⟨h1, h2, h3, h4⟩ := h
  obtain ⟨_, _, e1, e2, e3, e4⟩ := hs
  refine ⟨?_, ?_, ?_, ?_⟩
  · rw [e1, h1]
  · rw [e2, h2]
  · rw [e3, h3]
  · rw [e4, h4]

theorem settle_none {α : Type} {n : Nat} {f : PerPage → Option α} : ∀ (l : List PerPage) (own : Option α), (∀ e ∈ l, f e = none) → settle n f l own = own := by
  intro l
  induction l with
  | nil => intro own _; rfl
  | cons d l ih =>
    intro own h
    have hs : settle n f (d :: l) own = settle n f l (if multiContains d.pages n then f d <|> own else own) := rfl
    rw [hs, ih _ fun e he => h e (by simp [he]), h d (by simp)]
    split <;> simp

theorem settle_some {α : Type} {n : Nat} {f : PerPage → Option α} : ∀ (l : List PerPage) (own : Option α), own.isSome → (settle n f l own).isSome := by
  intro l
  induction l with
  | nil => intro own h; exact h
  | cons d l ih =>
    intro own h
    have hs : settle n f (d :: l) own = settle n f l (if multiContains d.pages n then f d <|> own else own) := rfl
    rw [hs]
    apply ih
    split
    · cases f d with
      | none => simpa using h
      | some v => rfl
    · exact h

theorem setUpdate_mem : ∀ (l s : List Str) (x : Str), x ∈ setUpdate s l ↔ x ∈ s ∨ x ∈ l := by
  intro l
  induction l with
  | nil => intro s x; simp [setUpdate]
  | cons a l ih =>
    intro s x
    have : setUpdate s (a :: l) = setUpdate (if a ∈ s then s else s ++ [a]) l := rfl
    rw [this, ih]
    split
    · rename_i ha
      simp only [List.mem_cons]
      constructor
      · rintro (h | h)
        · exact .inl h
        · exact .inr (.inr h)
      · rintro (h | rfl | h)
        · exact .inl h
        · exact .inl ha
        · exact .inr h
    · simp [or_assoc]

theorem setUpdate_nodup : ∀ (l s : List Str), s.Nodup → (setUpdate s l).Nodup := by
  intro l
  induction l with
  | nil => intro s h; exact h
  | cons a l ih =>
    intro s h
    have : setUpdate s (a :: l) = setUpdate (if a ∈ s then s else s ++ [a]) l := rfl
    rw [this]
    apply ih
    split
    · exact h
    · rename_i ha
      rw [List.nodup_append]
      refine ⟨h, by simp, ?_⟩
      intro x hx y hy
      simp only [List.mem_singleton] at hy
      subst hy
      rintro rfl
      exact ha hx

theorem names_nodup (d : PerPage) {s : List Str} (h : s.Nodup) : (d.names s).Nodup := by
  unfold PerPage.names
  split
  · exact setUpdate_nodup _ _ (h.filter _)
  · exact h

theorem perPage_names (n : Nat) : ∀ (l : List PerPage) (a : PageArgs) (s : List Str), s.Nodup →
    (perPageArgs n l (a, s)).2.Nodup ∧
    ∀ name, (if name ∈ (perPageArgs n l (a, s)).2 then some true else some false) = settle n (mentions name) l (if name ∈ s then some true else some false) := by
  intro l
  induction l with
  | nil => intro a s h; exact ⟨h, fun _ => rfl⟩
  | cons d l ih =>
    intro a s h
    simp only [perPageArgs]
    by_cases hc : multiContains d.pages n = true
    · simp only [hc, if_true]
      obtain ⟨h1, h2⟩ := ih (d.args a) (d.names s) (names_nodup d h)
      refine ⟨h1, fun name => ?_⟩
      rw [h2 name]
      have hs : ∀ own, settle n (mentions name) (d :: l) own = settle n (mentions name) l (if multiContains d.pages n then mentions name d <|> own else own) := fun _ => rfl
      rw [hs, if_pos hc]
      congr 1
      unfold PerPage.names mentions
      cases d.running with
      | none => rfl
      | some r =>
        obtain ⟨ex, inc⟩ := r
        simp only [setUpdate_mem, List.mem_filter, decide_not, Bool.not_eq_eq_eq_not, Bool.not_true, decide_eq_false_iff_not]
        by_cases h1 : name ∈ inc
        · simp [h1]
        · by_cases h2 : name ∈ ex
          · simp [h1, h2]
          · simp [h1, h2]
    · simp only [hc, if_false, Bool.false_eq_true]
      obtain ⟨h1, h2⟩ := ih a s h
      refine ⟨h1, fun name => ?_⟩
      rw [h2 name]
      have hs : ∀ own, settle n (mentions name) (d :: l) own = settle n (mentions name) l (if multiContains d.pages n then mentions name d <|> own else own) := fun _ => rfl
      rw [hs, if_neg hc]

end Verif
