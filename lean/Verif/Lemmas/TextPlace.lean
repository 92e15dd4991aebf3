import Verif.Props.C26_TextState
import Verif.Spec.NumVal
import Mathlib.Data.List.SplitBy
/-! The lines of a run: their words and widths, which of them are last, and the events that show them. -/
namespace Verif
open Spec

/-- the words of the content -/
def contentWords (c : List TItem) : List Str := c.flatMap fun
  | .text ws _ _ => ws
  | _ => []

/-- the widths of the lines are those of their words, which are words of the content or blanks -/
structure JLines (M : Metrics) (cfg : TCfg) (r : RunSt) : Prop where
  ok : ∀ l ∈ r.lines, ∀ p ∈ l.1.parts, p.Ok M
  words : ∀ l ∈ r.lines, ∀ t ∈ pieces l.1.parts, t.1 = c!" " ∨ t.1 ∈ contentWords cfg.content

/-- what is known during a run -/
structure JInv (M : Metrics) (cfg : TCfg) (r : RunSt) : Prop extends JLines M cfg r where
  cur : ∀ t ∈ pieces r.cur.parts ++ pieces r.cur.next, t.1 = c!" " ∨ t.1 ∈ contentWords cfg.content

theorem contentWords_mem {c : List TItem} {i k : Nat} {ws : List Str} {look : TLook} {ids : Option (List Str)} {w : Str}
    (h : c[i]? = some (.text ws look ids)) (hw : ws[k]? = some w) : w ∈ contentWords c := by
  unfold contentWords
  rw [List.mem_flatMap]
  exact ⟨_, List.mem_of_getElem? h, List.mem_of_getElem? hw⟩

theorem JInv.accept {M : Metrics} {cfg : TCfg} {r : RunSt} (h : JInv M cfg r) {l nl : TLine} (b : Bool)
    (hok : ∀ p ∈ l.parts, p.Ok M) (hw : ∀ t ∈ pieces l.parts, t.1 = c!" " ∨ t.1 ∈ contentWords cfg.content)
    (hn : ∀ t ∈ pieces nl.parts ++ pieces nl.next, t.1 = c!" " ∨ t.1 ∈ contentWords cfg.content) :
    JInv M cfg { accept cfg r l b with cur := nl } := by
  refine ⟨⟨?_, ?_⟩, hn⟩
  · intro y hy p hp
    simp only [Verif.accept, List.mem_append, List.mem_singleton] at hy
    rcases hy with hy | rfl
    · exact h.ok y hy p hp
    · exact hok p hp
  · intro y hy t ht
    simp only [Verif.accept, List.mem_append, List.mem_singleton] at hy
    rcases hy with hy | rfl
    · exact h.words y hy t ht
    · exact hw t ht

theorem jInv_hyp (M : Metrics) (cfg : TCfg) (width height : Rat) :
    RunHyp M cfg width height (fun r _ _ => JInv M cfg r) (JLines M cfg) where
  added := by
    intro r i k ws look ids w l' h wf hl hc hw hcase
    have hcw := contentWords_mem hc hw
    cases hcase with
    | first _ hsp hs hs' hp hn hm' wf' hl' hlk =>
      refine ⟨⟨h.ok, h.words⟩, ?_⟩
      intro t ht
      simp only [hp, hn, List.mem_append, List.mem_singleton] at ht
      rcases ht with ht | ht | rfl
      · exact h.cur t (by simp [ht])
      · exact h.cur t (by simp [ht])
      · exact Or.inr hcw
    | accum _ hsp hcc hs' hp hn hm' wf' hl' hlk =>
      refine ⟨⟨h.ok, h.words⟩, ?_⟩
      intro t ht
      simp only [hp, hn, List.mem_append, List.mem_singleton, List.not_mem_nil, or_false] at ht
      rcases ht with (ht | ht) | rfl
      · exact h.cur t (by simp [ht])
      · exact h.cur t (by simp [ht])
      · exact Or.inl rfl
  keep := by
    intro r i k ws look ids w l' res h wf hl hc hw hcase hres
    have hcw := contentWords_mem hc hw
    cases hcase with
    | first => rcases hres with h | h <;> cases h
    | accum => rcases hres with h | h <;> cases h
    | finished => rcases hres with h | h <;> cases h
    | ignored hsp hcc => exact h
    | preadded _ hsp hs hs' hp hn hm' hfit wf' hl' hlk =>
      refine ⟨⟨h.ok, h.words⟩, ?_⟩
      intro t ht
      simp only [hp, hn, List.mem_append, List.mem_singleton] at ht
      rcases ht with ht | ht | rfl
      · exact h.cur t (by simp [ht])
      · exact h.cur t (by simp [ht])
      · exact Or.inr hcw
  finOk := by
    intro r i k ws look ids w l' nl b h wf hl hc hw hcase _ hh
    have hcw := contentWords_mem hc hw
    cases hcase with
    | finished _ _ hsp hs hp hn hm' hok hlast ns nf np na nt nn wf' hl' hlk =>
      refine h.accept b hok ?_ ?_
      · intro t ht
        obtain ⟨t0, e, _⟩ := hp
        exact h.cur t (by rw [e]; simp [ht])
      · intro t ht
        simp only [np, nn, pieces_nil, List.nil_append, List.mem_append, List.mem_singleton] at ht
        rcases ht with ht | rfl
        · exact h.cur t (by simp [ht])
        · exact Or.inr hcw
  finBad := by intro r i k ws look ids w l' nl h _ _ _ _ _ _; exact ⟨h.ok, h.words⟩
  part := by
    intro r i k ws look ids h wf hc
    obtain ⟨e1, e2, e3, e4, ⟨b, e5⟩, ⟨w, e6⟩⟩ := partStart_fields cfg look ids r
    refine ⟨⟨by rw [e2]; exact h.ok, by rw [e2]; exact h.words⟩, ?_⟩
    rw [e6]
    intro t ht
    exact h.cur t (by simpa [TLine.addLinePart, TPart.new, TPart.pieces] using ht)
  partEnd := by intro r i ws look ids h _ _; exact ⟨⟨h.ok, h.words⟩, h.cur⟩
  skip := by intro r i h _ _; exact h
  brOk := by
    intro r i h wf _ hh
    have h' : JInv M cfg { r with pos := { r.pos with partAdded := i + 1, wordAdded := 0 } } := ⟨⟨h.ok, h.words⟩, h.cur⟩
    refine h'.accept true ?_ ?_ ?_
    · intro p hp
      simp only [closeLine, if_true, List.mem_append] at hp
      rcases hp with hp | hp
      · exact wf.okParts p hp
      · exact wf.okNext p hp
    · intro t ht; exact h.cur t (by simpa [closeLine] using ht)
    · intro t ht; simp [TLine.new] at ht
  brBad := by intro r i h _ _ _; exact ⟨h.ok, h.words⟩

theorem textRun_lines (M : Metrics) (cfg : TCfg) (width height : Rat) (pos : TPos)
    (hv : ValidPos cfg.content pos.lastPart pos.lastWord) : JLines M cfg (textRun M cfg width height pos) := by
  refine textRun_ind (jInv_hyp M cfg width height) pos hv.2 hv.1 ?_ (R := JLines M cfg) (fun r hr => hr) ?_ ?_
  · exact ⟨⟨by simp [runInit], by simp [runInit]⟩, by simp [runInit, TLine.new]⟩
  · intro r hr wf hh
    have := hr.accept (nl := TLine.new 0 [] 0) (l := closeLine true r.cur) true
      (by
        intro p hp
        simp only [closeLine, if_true, List.mem_append] at hp
        rcases hp with hp | hp
        · exact wf.okParts p hp
        · exact wf.okNext p hp)
      (by intro t ht; exact hr.cur t (by simpa [closeLine] using ht)) (by intro t ht; simp [TLine.new] at ht)
    exact ⟨this.ok, this.words⟩
  · intro r hr _ _; exact ⟨hr.ok, hr.words⟩

/-! ### which lines are last -/

/-- before the last word of the content no line is last; after it only the last one can be -/
def LInv (cfg : TCfg) (r : RunSt) (i k : Nat) : Prop :=
  (∀ l ∈ r.lines.dropLast, l.2 = false) ∧
  ((∃ l ∈ r.lines, l.2 = true) → i ≥ cfg.content.length ∨
    (i + 1 = cfg.content.length ∧ ∀ ws look ids, cfg.content[i]? = some (.text ws look ids) → ws.length ≤ k))

theorem lInv_hyp (M : Metrics) (cfg : TCfg) (width height : Rat) (hbr : TItem.br ∉ cfg.content) :
    RunHyp M cfg width height (LInv cfg) (fun r => ∀ l ∈ r.lines.dropLast, l.2 = false) where
  added := by
    intro r i k ws look ids w l' h wf hl hc hw hcase
    refine ⟨h.1, fun hh => ?_⟩
    rcases h.2 hh with a | ⟨a, b⟩
    · exact Or.inl a
    · exact Or.inr ⟨a, fun ws' look' ids' e => Nat.le_succ_of_le (b ws' look' ids' e)⟩
  keep := by
    intro r i k ws look ids w l' res h wf hl hc hw hcase hres
    refine ⟨h.1, fun hh => ?_⟩
    rcases h.2 hh with a | ⟨a, b⟩
    · exact Or.inl a
    · exact Or.inr ⟨a, fun ws' look' ids' e => Nat.le_succ_of_le (b ws' look' ids' e)⟩
  finOk := by
    intro r i k ws look ids w l' nl b h wf hl hc hw hcase hb hh
    have hnone : ∀ l ∈ r.lines, l.2 = false := by
      intro l hl'
      by_contra hne
      rcases h.2 ⟨l, hl', by simpa using hne⟩ with a | ⟨a, b⟩
      · have := (List.getElem?_eq_some_iff.1 hc).1; omega
      · have := b ws look ids hc
        have := (List.getElem?_eq_some_iff.1 hw).1
        omega
    refine ⟨?_, ?_⟩
    · simpa [accept] using hnone
    · rintro ⟨l, hl', ht⟩
      simp only [accept, List.mem_append, List.mem_singleton] at hl'
      rcases hl' with hl' | rfl
      · rw [hnone l hl'] at ht; cases ht
      · obtain ⟨h1, h2⟩ := hb ht
        refine Or.inr ⟨h1, fun ws' look' ids' e => ?_⟩
        rw [hc] at e
        cases e
        omega
  finBad := by intro r i k ws look ids w l' nl h _ _ _ _ _ _; exact h.1
  part := by
    intro r i k ws look ids h wf hc
    obtain ⟨e1, e2, _⟩ := partStart_fields cfg look ids r
    unfold LInv
    rw [e2]
    exact h
  partEnd := by
    intro r i ws look ids h _ hc
    refine ⟨h.1, fun hh => ?_⟩
    rcases h.2 hh with a | ⟨a, b⟩
    · exact Or.inl (by omega)
    · exact Or.inl (by omega)
  skip := by
    intro r i h _ hc
    refine ⟨h.1, fun hh => ?_⟩
    rcases h.2 hh with a | ⟨a, b⟩
    · exact Or.inl (by omega)
    · exact Or.inl (by omega)
  brOk := by intro r i h wf hc hh; exact absurd (List.mem_of_getElem? hc) hbr
  brBad := by intro r i h wf hc hh; exact absurd (List.mem_of_getElem? hc) hbr

/-- without line breaks only the last two lines of a run can be marked as last -/
theorem textRun_flags (M : Metrics) (cfg : TCfg) (width height : Rat) (pos : TPos) (hbr : TItem.br ∉ cfg.content)
    (hv : ValidPos cfg.content pos.lastPart pos.lastWord) (j : Nat) (l : TLine × Bool)
    (hj : (textRun M cfg width height pos).lines[j]? = some l) (hlt : j + 2 < (textRun M cfg width height pos).lines.length) :
    l.2 = false := by
  revert hj hlt
  refine textRun_ind (lInv_hyp M cfg width height hbr) pos hv.2 hv.1 ?_
    (R := fun r => r.lines[j]? = some l → j + 2 < r.lines.length → l.2 = false) ?_ ?_ ?_
  · exact ⟨by simp [runInit], by simp [runInit]⟩
  · intro r hr hj hlt
    refine hr l ?_
    rw [List.mem_iff_getElem?]
    exact ⟨j, by rw [List.getElem?_dropLast, if_pos (by omega)]; exact hj⟩
  · intro r hr _ _ hj hlt
    simp only [accept] at hj hlt
    simp only [List.length_append, List.length_cons, List.length_nil] at hlt
    rw [List.getElem?_append_left (by omega)] at hj
    refine hr.1 l ?_
    rw [List.mem_iff_getElem?]
    exact ⟨j, by rw [List.getElem?_dropLast, if_pos (by omega)]; exact hj⟩
  · intro r hr _ _ hj hlt
    refine hr.1 l ?_
    rw [List.mem_iff_getElem?]
    exact ⟨j, by rw [List.getElem?_dropLast, if_pos (by simp only [reject] at hlt; omega)]; exact hj⟩

/-! ### what is shown, with its line -/

/-- something a run shows: the number of its line, the line, and a part of it; `none` is the text of the list -/
structure Placed where
  j : Nat
  line : TLine × Bool
  part : Option TPart

/-- what is shown of the lines from the `j`-th on -/
def placedFrom (cfg : TCfg) (first : Bool) : Nat → List (TLine × Bool) → List Placed
  | _, [] => []
  | j, l :: ls => (if cfg.list.isSome ∧ first = true ∧ j = 0 then [⟨j, l, none⟩] else []) ++
      ((l.1.parts.filter fun p => p.words.flatten ≠ []).map fun p => ⟨j, l, some p⟩) ++ placedFrom cfg first (j + 1) ls

/-- the variables before a line -/
def GeoAt (first : Bool) (j : Nat) (g : Geo) : Prop := (j = 0 → g.started = false ∧ g.isFirst = first) ∧ (0 < j → g.started = true)

theorem GeoAt.next {first : Bool} {j : Nat} {g : Geo} (cfg : TCfg) (width : Rat) (l : TLine) : GeoAt first (j + 1) (g.next cfg width l) :=
  ⟨fun h => by omega, fun _ => rfl⟩

theorem GeoAt.atStart {first : Bool} {j : Nat} {g : Geo} (h : GeoAt first j g) : g.atStart = true ↔ first = true ∧ j = 0 := by
  by_cases hj : j = 0
  · obtain ⟨h1, h2⟩ := h.1 hj
    simp [Geo.atStart, h1, h2, hj]
  · have := h.2 (by omega)
    simp [Geo.atStart, this, hj]

theorem placed_items {F : TFmt} {cfg : TCfg} {width : Rat} {first : Bool} (S : Placed → ShItem → Prop) (I : Nat → Geo → List (Bytes × Bytes) → Prop)
    (hI : ∀ j g mv l, GeoAt first j g → I j g mv → I (j + 1) (g.next cfg width l) (mv ++ lineMoves F cfg width l g))
    (hb : ∀ j g mv l lc, GeoAt first j g → I j g mv → first = true → j = 0 → cfg.list = some lc →
      S ⟨j, l, none⟩ (.bullet lc (mv ++ [(b!"0", F.down (g.dy cfg l.1))])))
    (hp : ∀ j g mv l p, GeoAt first j g → I j g mv → p ∈ l.1.parts →
      S ⟨j, l, some p⟩ (.part p (lineFactor cfg width l.2 l.1 g) (mv ++ lineMoves F cfg width l.1 g))) :
    ∀ (ls : List (TLine × Bool)) (j : Nat) (g : Geo) (mv : List (Bytes × Bytes)), GeoAt first j g → I j g mv →
      List.Forall₂ S (placedFrom cfg first j ls) (runItems F cfg width ls g mv) := by
  intro ls
  induction ls with
  | nil => intro j g mv _ _; exact .nil
  | cons l ls ih =>
    intro j g mv hg hi
    rw [placedFrom, runItems]
    refine List.rel_append ?_ (ih _ _ _ (GeoAt.next cfg width l.1) (hI j g mv l.1 hg hi))
    unfold lineItems
    refine List.rel_append ?_ ?_
    · cases hlist : cfg.list with
      | none => simp
      | some lc =>
        by_cases hst : first = true ∧ j = 0
        · simp only [Option.isSome_some, hst, true_and, if_pos, hg.atStart.2 hst]
          exact .cons (hst.2 ▸ hb j g mv l lc hg hi hst.1 hst.2 hlist) .nil
        · have : g.atStart = false := by
            by_contra hne
            exact hst (hg.atStart.1 (by simpa using hne))
          simp [hst, this]
    · have : ∀ ps : List TPart, (∀ p ∈ ps, p ∈ l.1.parts) → List.Forall₂ S (ps.map fun p => ⟨j, l, some p⟩)
          (ps.map fun p => ShItem.part p (lineFactor cfg width l.2 l.1 g) (mv ++ lineMoves F cfg width l.1 g)) := by
        intro ps
        induction ps with
        | nil => intro _; exact .nil
        | cons p ps ih2 => intro h; exact .cons (hp j g mv l p hg hi (h p (by simp))) (ih2 fun q hq => h q (by simp [hq]))
      exact this _ fun p hp => (List.mem_filter.1 hp).1

theorem forall2_comp {α β γ : Type} {R : α → β → Prop} {S : β → γ → Prop} {T : α → γ → Prop} (h : ∀ a b c, R a b → S b c → T a c) :
    ∀ {l : List α} {m : List β} {n : List γ}, List.Forall₂ R l m → List.Forall₂ S m n → List.Forall₂ T l n := by
  intro l m n h1
  induction h1 generalizing n with
  | nil => intro h2; cases h2; exact .nil
  | cons hab _ ih => intro h2; cases h2 with
    | cons hbc h2 => exact .cons (h _ _ _ hab hbc) (ih h2)

theorem forall2_mem_right {α β : Type} {R : α → β → Prop} {P : α → Prop} : ∀ {l : List α} {m : List β}, List.Forall₂ R l m →
    (∀ a ∈ l, P a) → List.Forall₂ (fun a b => R a b ∧ P a) l m := by
  intro l m h
  induction h with
  | nil => intro _; exact .nil
  | cons h _ ih => intro hh; exact .cons ⟨h, hh _ (by simp)⟩ (ih fun a ha => hh a (by simp [ha]))

/-- the words of a text are blanks or have no blanks -/
theorem splitWords_blank (s : Str) : ∀ w ∈ splitWords s, w = c!" " ∨ ' ' ∉ w := by
  intro w hw
  unfold splitWords at hw
  obtain ⟨v, hv, rfl⟩ := List.mem_map.1 hw
  split
  · exact Or.inl rfl
  · rename_i hns
    right
    intro hsp
    have hch := List.isChain_of_mem_splitBy hv
    have hall : ∀ c ∈ v, c = ' ' := by
      clear hns hv hw
      have key : ∀ (u : Str), List.IsChain (fun a b => ((a == ' ') == (b == ' ')) = true) u → ' ' ∈ u → ∀ c ∈ u, c = ' ' := by
        intro u
        induction u with
        | nil => intro _ h; simp at h
        | cons a u ih =>
          intro hc hm c hcm
          cases u with
          | nil =>
            simp only [List.mem_singleton] at hm hcm
            rw [hcm, ← hm]
          | cons b u =>
            rw [List.isChain_cons_cons] at hc
            have hab : (a = ' ') ↔ (b = ' ') := by
              have := hc.1
              simp only [Bool.beq_eq_decide_eq] at this
              constructor <;> intro h <;> simp_all
            have hb : b = ' ' := by
              rcases List.mem_cons.1 hm with h | h
              · exact hab.1 h.symm
              · exact ih hc.2 h b (by simp)
            rcases List.mem_cons.1 hcm with rfl | hcm
            · exact hab.2 hb
            · exact ih hc.2 (by rw [hb]; simp) c hcm
      exact key v hch hsp
    apply hns
    unfold strIsSpace
    have : v ≠ [] := by intro h; rw [h] at hsp; simp at hsp
    simp only [Bool.and_eq_true, Bool.not_eq_true', List.isEmpty_eq_false_iff, List.all_eq_true]
    refine ⟨this, fun c hc => ?_⟩
    rw [hall c hc]
    decide

end Verif
