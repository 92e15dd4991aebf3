import Verif.Lemmas.FootPage
import Verif.Lemmas.FootMarks
import Verif.Spec.FootPage
import Verif.Props.C86_Piled
import Verif.Props.C94_Moved
import Verif.Props.C50_Footnotes
/-! C95: where the footnotes of a page are. -/
namespace Verif
open Spec

variable {σ P B C κ : Type}

theorem noteEl_simple {m : Rat} {e : CEl σ} (h : NoteEl m e) : e.Simple := by
  cases e with
  | leaf c st => trivial
  | image i => exact h.2
  | group l t st => exact absurd h id
  | child c g l st => exact absurd h id

theorem noteEl_in {m W : Rat} {e : CEl σ} (h : NoteEl m e) : ElIn True m W e := by
  cases e with
  | leaf c st => exact .leaf h
  | image i => exact .image h.1
  | group l t st => exact absurd h id
  | child c g l st => exact absurd h id

/-- what a page with a list is made of -/
theorem addFooted_list {exec : κ → σ → Rat → Rat → Rat → Rat → Except PyErr (CellOut σ P B C)} {notes : κ → List (CPart P) → Except PyErr (Option (List (CEl σ)) × κ)} {fuel : Nat} {s s' : CContent σ P B C}
    {ctx ctx' : κ} {x y w h : Rat} {p : FootPage P B C} (hp : addFooted exec notes fuel s ctx x y w h = .ok (s', ctx', p)) :
    ∃ s1, s.run (exec ctx) fuel x y w h = .ok s1 ∧
      ((p.list = none ∧ p.out = s1.out ∧ s' = s1) ∨
        ∃ l1 ctx1 n1, notes ctx s1.out.parts = .ok (some l1, ctx1) ∧ (CContent.new 1 none l1).run (exec ctx1) fuel x y w h = .ok n1 ∧ n1.currentHeight < h - 30 ∧
          (s.restored s1).run (exec ctx1) fuel x y w (h - n1.currentHeight - 10) = .ok s' ∧ p.out = s'.out ∧
          (p.list = none ∨ ∃ l2 n2 n3, notes ctx1 s'.out.parts = .ok (some l2, ctx') ∧ (CContent.new 1 none l2).run (exec ctx') fuel x y w h = .ok n2 ∧
            n2.run (exec ctx') fuel x (y - h + n1.currentHeight) w h = .ok n3 ∧
            p.list = some ⟨x, x + 150, y - h + n1.currentHeight + 5, y - h + n1.currentHeight, n3.out, n3.currentHeight, n3.finished⟩)) := by
  unfold addFooted at hp
  cases h1 : s.run (exec ctx) fuel x y w h with
  | error e => rw [h1] at hp; cases hp
  | ok s1 =>
    rw [h1] at hp
    refine ⟨s1, rfl, ?_⟩
    simp only at hp
    cases h2 : notes ctx s1.out.parts with
    | error e => rw [h2] at hp; cases hp
    | ok r1 =>
      obtain ⟨l1, ctx1⟩ := r1
      rw [h2] at hp
      cases l1 with
      | none => cases hp; exact .inl ⟨rfl, rfl, rfl⟩
      | some l1 =>
        right
        simp only [footObj] at hp
        cases h3 : (CContent.new 1 none l1 : CContent σ P B C).run (exec ctx1) fuel x y w h with
        | error e => rw [h3] at hp; cases hp
        | ok n1 =>
          rw [h3] at hp
          simp only at hp
          by_cases h4 : n1.currentHeight ≥ h - footMargin - 20
          · rw [if_pos h4] at hp; cases hp
          · rw [if_neg h4] at hp
            have h4' : n1.currentHeight < h - 30 := by unfold footMargin at h4; linarith
            cases h5 : (s.restored s1).run (exec ctx1) fuel x y w (h - n1.currentHeight - footMargin) with
            | error e => rw [h5] at hp; cases hp
            | ok s2 =>
              rw [h5] at hp
              simp only at hp
              cases h6 : notes ctx1 s2.out.parts with
              | error e => rw [h6] at hp; cases hp
              | ok r2 =>
                obtain ⟨l2, ctx2⟩ := r2
                rw [h6] at hp
                cases l2 with
                | none => cases hp; exact ⟨l1, ctx1, n1, rfl, h3, h4', h5, rfl, .inl rfl⟩
                | some l2 =>
                  simp only at hp
                  cases h7 : (CContent.new 1 none l2 : CContent σ P B C).run (exec ctx2) fuel x y w h with
                  | error e => rw [h7] at hp; cases hp
                  | ok n2 =>
                    rw [h7] at hp
                    simp only at hp
                    cases h8 : n2.run (exec ctx2) fuel x (y - h + n1.currentHeight) w h with
                    | error e => rw [h8] at hp; cases hp
                    | ok n3 =>
                      rw [h8] at hp
                      cases hp
                      refine ⟨l1, ctx1, n1, rfl, h3, h4', h5, rfl, .inr ⟨l2, n2, n3, h6, h7, h8, ?_⟩⟩
                      simp only [footMargin]
                      norm_num

/-- a page has no list only if the parts on it have no marks -/
theorem addFooted_marks {exec : κ → σ → Rat → Rat → Rat → Rat → Except PyErr (CellOut σ P B C)} {notes : κ → List (CPart P) → Except PyErr (Option (List (CEl σ)) × κ)} {fuel : Nat} {s s' : CContent σ P B C}
    {ctx ctx' : κ} {x y w h : Rat} {p : FootPage P B C} (hp : addFooted exec notes fuel s ctx x y w h = .ok (s', ctx', p)) (hn : p.list = none) :
    ∃ c, notes c p.out.parts = .ok (none, ctx') := by
  unfold addFooted at hp
  split at hp
  · cases hp
  · split at hp
    · cases hp
    · rename_i h2; cases hp; exact ⟨_, h2⟩
    · split at hp
      · cases hp
      · split_ifs at hp
        split at hp
        · cases hp
        · split at hp
          · cases hp
          · rename_i h2; cases hp; exact ⟨_, h2⟩
          · split at hp
            · cases hp
            · simp only at hp
              split at hp
              · cases hp
              · cases hp; cases hn

/-- what a box leaves in one rectangle -/
theorem boxDrawings_one {exec : σ → Rat → Rat → Rat → Rat → Except PyErr (CellOut σ P B C)} {fuel : Nat} {s n : CContent σ P B C} {x y w h : Rat} (hr : s.run exec fuel x y w h = .ok n) :
    boxDrawings exec fuel [(x, y, w, h)] s = .ok [⟨n.out.parts, n.out.lines, n.out.fills, n.currentHeight, n.finished⟩] := by
  simp only [boxDrawings, hr]
  cases n.finished <;> rfl

/-- **C95**, the list of a page: if it has room on a page of its own, it is shown as there, moved down, with its top 5 below the rule. The room for it is the height of the list
of the marks that the whole page would have had; if these lists are equally high, it ends at the lower margin. -/
theorem C95_list {exec : κ → σ → Rat → Rat → Rat → Rat → Except PyErr (CellOut σ P B C)} {notes : κ → List (CPart P) → Except PyErr (Option (List (CEl σ)) × κ)} {m : Rat → Rat → P → P}
    (hm : ∀ ctx, FollowsRect (exec ctx) m) {least : Rat} (hnotes : ∀ ctx ps l ctx', notes ctx ps = .ok (some l, ctx') → ∀ e ∈ l, NoteEl least e) (fuel : Nat)
    (s s' : CContent σ P B C) (ctx ctx' : κ) (x y w h : Rat) (p : FootPage P B C)
    (hp : addFooted exec notes fuel s ctx x y w h = .ok (s', ctx', p)) (L : FootList P B C) (hL : p.list = some L) :
    ∃ (whole : CContent σ P B C) (ctx1 : κ) (l1 l2 : List (CEl σ)) (d1 d2 : RunLeft (CPart P) B C),
      s.run (exec ctx) fuel x y w h = .ok whole ∧ notes ctx whole.out.parts = .ok (some l1, ctx1) ∧ notes ctx1 p.out.parts = .ok (some l2, ctx') ∧
      boxDrawings (exec ctx1) fuel [(x, y, w, h)] (CContent.new 1 none l1) = .ok [d1] ∧ boxDrawings (exec ctx') fuel [(x, y, w, h)] (CContent.new 1 none l2) = .ok [d2] ∧
      L.ruleY = y - h + d1.height + 5 ∧
      (d2.finished = true →
        (⟨L.out.parts, L.out.lines, L.out.fills, L.height, L.finished⟩ : RunLeft (CPart P) B C) = d2.mv (fun dx dy => CPart.mv (m dx dy) dx dy) 0 (d1.height - h) ∧
        (d1.height = d2.height → L.ruleY - 5 - L.height = y - h)) := by
  obtain ⟨s1, h1, ⟨h2, -⟩ | ⟨l1, ctx1, n1, h2, h3, -, -, h4, h5⟩⟩ := addFooted_list hp
  · rw [h2] at hL; cases hL
  rcases h5 with h5 | ⟨l2, n2, n3, h5, h6, h7, h8⟩
  · rw [h5] at hL; cases hL
  rw [h8] at hL
  cases hL
  refine ⟨s1, ctx1, l1, l2, _, _, h1, h2, by rw [h4]; exact h5, boxDrawings_one h3, boxDrawings_one h6, rfl, fun f2 => ?_⟩
  simp only at f2
  obtain ⟨k, hk, k1, k2, k3⟩ := list_again (exec ctx') (exec ctx') fuel none l2 (fun e he => noteEl_simple (hnotes _ _ _ _ h5 e he)) x y w h x (y - h + n1.currentHeight) w h h6 f2 h7
  have hsame := boxRun_mv (follows_shifts (hm ctx') 0 (n1.currentHeight - h)) fuel _ _ (box_new_alike (P := P) (B := B) (C := C) id 1 none l2) x y w h
  rw [mp_id_list] at hsame
  rcases hsame with ⟨e, he, -⟩ | ⟨t1, t2, ht1, ht2, -, ho, hh⟩
  · rw [h6] at he; cases he
  rw [h6] at ht1
  cases ht1
  rw [show x + 0 = x by ring, show y + (n1.currentHeight - h) = y - h + n1.currentHeight by ring, hk] at ht2
  cases ht2
  have fin : n3.finished = true := by
    unfold CContent.run at h7
    split at h7
    · cases h7
    · simp only at h7
      split at h7
      · cases h7
      · cases h7; simp [f2]
      · cases h7
  refine ⟨?_, ?_⟩
  · simp only [k1, k2, ho, hh, fin, f2, RunLeft.mv, COut.mv]
  · intro he
    simp only at he ⊢
    rw [k2, hh, ← he]; ring

theorem restored_in {one : Prop} {m W : Rat} {s s1 : CContent σ P B C} (h : ContentIn one m W s) (h1 : ContentIn one m W s1) : ContentIn one m W (s.restored s1) := by
  refine ⟨h1.cols, h1.one_, h1.gap, h1.least, h1.width, h1.elements, ?_⟩
  intro f hf
  simp only [CContent.restored] at hf
  cases hb : s1.box with
  | none => rw [hb] at hf; cases hf
  | some g =>
    rw [hb] at hf
    cases hf
    obtain ⟨b1, b2, b3, -, -, b6⟩ := h1.box g hb
    refine ⟨b1, b2, b3, ?_, ?_, b6⟩ <;> cases hc : s.box with
      | none => simp
      | some f0 =>
        have := h.box f0 hc
        simp only [Option.map_some, Option.getD_some]
        first
          | exact this.2.2.2.1
          | exact this.2.2.2.2.1

section
variable {exec : κ → σ → Rat → Rat → Rat → Rat → Except PyErr (CellOut σ P B C)} {notes : κ → List (CPart P) → Except PyErr (Option (List (CEl σ)) × κ)} {area : P → Area} {m : Rat}

theorem addFooted_in (hexec : ∀ ctx, KeepsArea area (exec ctx)) (hnotes : ∀ ctx ps l ctx', notes ctx ps = .ok (some l, ctx') → ∀ e ∈ l, NoteEl m e) {fuel : Nat}
    {s s' : CContent σ P B C} {ctx ctx' : κ} {x y w h : Rat} (hs : ContentIn True m w s) (hfit : ListsFit exec notes fuel x y w h) {p : FootPage P B C}
    (hp : addFooted exec notes fuel s ctx x y w h = .ok (s', ctx', p)) : ContentIn True m w s' ∧ FootPageIn area (x, y, w, h) p := by
  have hw : m ≤ w := by
    have h1 := hs.width
    rwa [hs.one_ trivial, columnWidth_one] at h1
  have hwithin : ∀ {R : Area} {ps : List (CPart P)}, PartsIn area True R ps → AllWithin area ps R := by
    intro R ps hps q hq hq'
    obtain ⟨k1, k2, k3, k4⟩ := hps q hq hq'
    exact ⟨k1, k2, k3, k4 trivial⟩
  have hlist : ∀ (l : List (CEl σ)), (∀ e ∈ l, NoteEl m e) → ElIn True m w (.child 1 none l ⟨0, 0, 0, 0, none, false, .flow⟩) := by
    intro l hl
    exact .child ⟨le_refl _, le_refl _⟩ (by decide) (by intro g hg; cases hg) (fun _ => rfl) (by rw [columnWidth_one]; exact hw) (fun e he => noteEl_in (hl e he))
  obtain ⟨s1, h1, ⟨h2, h3, rfl⟩ | ⟨l1, ctx1, n1, h2, h3, hlt, hrun, h4, h5⟩⟩ := addFooted_list hp
  · obtain ⟨k1, k2⟩ := content_run_in (keeps_in (hexec ctx)) hs h1
    refine ⟨k1, fun _ => by rw [h3]; exact hwithin k2, ?_, ?_, ?_⟩ <;> intro L hL <;> rw [h2] at hL <;> cases hL
  have hs1 := (content_run_in (keeps_in (hexec ctx)) hs h1).1
  obtain ⟨k1, k2⟩ := content_run_in (keeps_in (hexec ctx1)) (restored_in hs hs1) hrun
  obtain ⟨-, -, p3, p4⟩ := C86_piled area (exec ctx1) (hexec ctx1) m w hs.least 1 none l1 (hlist l1 (hnotes _ _ _ _ h2)) fuel [] (by simp) [] _ n1 rfl x y h h3
  refine ⟨k1, ?_⟩
  rcases h5 with h5 | ⟨l2, n2, n3, h5, h6, h7, h8⟩
  · refine ⟨fun _ => ?_, ?_, ?_, ?_⟩
    · rw [h4]
      intro q hq hq'
      obtain ⟨w1, w2, w3, w4⟩ := hwithin k2 q hq hq'
      exact ⟨w1, w2, w3, by simp only at w4 ⊢; linarith⟩
    all_goals intro L hL; rw [h5] at hL; cases hL
  · obtain ⟨k, hk, e1, e2, -⟩ := list_again (exec ctx') (exec ctx') fuel none l2 (fun e he => noteEl_simple (hnotes _ _ _ _ h5 e he)) x y w h x (y - h + n1.currentHeight) w h h6
      (hfit _ _ _ _ h5 _ h6) h7
    obtain ⟨-, q2, q3, q4⟩ := C86_piled area (exec ctx') (hexec ctx') m w hs.least 1 none l2 (hlist l2 (hnotes _ _ _ _ h5)) fuel [] (by simp) [] _ k rfl x (y - h + n1.currentHeight) h hk
    refine ⟨fun hn => (by rw [h8] at hn; cases hn), ?_, ?_, ?_⟩ <;> intro L hL <;> rw [h8] at hL <;> cases hL
    · refine ⟨rfl, rfl, ?_, ?_⟩ <;> simp only <;> linarith
    · rw [h4]
      intro q hq hq'
      obtain ⟨w1, w2, w3, w4⟩ := hwithin k2 q hq hq'
      exact ⟨w1, w2, w3, by simp only at w4 ⊢; linarith⟩
    · refine ⟨?_, ?_, ?_⟩
      · intro q hq hq'
        simp only at hq ⊢
        rw [e1] at hq
        obtain ⟨w1, w2, w3, w4⟩ := q2 q hq hq'
        rw [e2]
        exact ⟨w1, w2, by simp only at w3 ⊢; linarith, by simp only at w4 ⊢; linarith⟩
      · simp only; rw [e2]; exact q3
      · simp only
        rw [e2]
        rcases lt_or_eq_of_le q3 with hpos | hzero
        · exact le_trans (q4 hpos) (le_max_right _ _)
        · rw [← hzero]; exact le_max_left _ _

/-- **C95**, all the pages of a section of one column: on a page with footnotes the section is above the rule, and the list below it, each at a distance of 5 -/
theorem C95_pages (area : P → Area) (hexec : ∀ ctx, KeepsArea area (exec ctx)) (m : Rat) (hm : 0 ≤ m) (hnotes : ∀ ctx ps l ctx', notes ctx ps = .ok (some l, ctx') → ∀ e ∈ l, NoteEl m e)
    (turn : κ → κ) (fuel : Nat) (gap : Option Rat) (els : List (CEl σ)) (hg : ∀ g, gap = some g → 0 ≤ g) (hels : ∀ e ∈ els, ElIn True m m e)
    (rects : List RunRect) (hrects : ∀ r ∈ rects, m ≤ r.2.2.1 ∧ ListsFit exec notes fuel r.1 r.2.1 r.2.2.1 r.2.2.2) (ctx : κ)
    (pages : List (RunRect × FootPage P B C)) (hp : footPages exec notes turn fuel rects (CContent.new 1 gap els) ctx = .ok pages) :
    ∀ q ∈ pages, FootPageIn area q.1 q.2 := by
  have h0 : ContentIn True m m (CContent.new 1 gap els : CContent σ P B C) :=
    ⟨by simp [CContent.new], fun _ => rfl, hg, hm, by simp only [CContent.new, columnWidth_one]; exact le_refl _, by simp only [CContent.new, columnWidth_one]; exact hels, by intro f hf; cases hf⟩
  generalize (CContent.new 1 gap els : CContent σ P B C) = s at hp h0
  induction rects generalizing s ctx pages m with
  | nil => unfold footPages at hp; cases hp; simp
  | cons r rects ih =>
    obtain ⟨x, y, w, h⟩ := r
    obtain ⟨hw, hfit⟩ := hrects _ (List.mem_cons_self ..)
    unfold footPages at hp
    cases h1 : addFooted exec notes fuel s (turn ctx) x y w h with
    | error e => rw [h1] at hp; cases hp
    | ok t =>
      obtain ⟨s', ctx', p⟩ := t
      rw [h1] at hp
      obtain ⟨k1, k2⟩ := addFooted_in hexec hnotes (h0.rewidth hw) hfit h1
      simp only at hp
      by_cases hf : s'.finished = true
      · rw [if_pos hf] at hp
        cases hp
        intro q hq
        rw [List.mem_singleton] at hq
        rw [hq]; exact k2
      · rw [if_neg hf] at hp
        cases h2 : footPages exec notes turn fuel rects s' ctx' with
        | error e => rw [h2] at hp; cases hp
        | ok ps =>
          rw [h2] at hp
          cases hp
          intro q hq
          rcases List.mem_cons.1 hq with rfl | hq
          · exact k2
          · exact ih m hm hnotes hels (fun r hr => hrects r (List.mem_cons_of_mem _ hr)) ctx' ps s' h2 (k1.rewidth (le_refl _)) q hq

/-- **C95**, sections of paragraphs and tables in any number of columns: the pages have what the same section would have on shorter pages, without footnotes. The trials leave
nothing on the page, and nothing is shown twice or missing because of them. -/
theorem C95_shorter (turn : κ → κ) (fuel cols : Nat) (gap : Option Rat) (els : List (CEl σ))
    (hels : ∀ e ∈ els, ∃ c st, e = .leaf c st) (rects : List RunRect) (ctx : κ) (pages : List (RunRect × FootPage P B C))
    (hp : footPages exec notes turn fuel rects (CContent.new cols gap els) ctx = .ok pages) :
    ∃ (short : List (κ × RunRect)) (ds : List (RunLeft (CPart P) B C)), List.Forall₂ (fun q r => ShorterPage q r.2) pages short ∧
      ctxDrawings exec fuel short (CContent.new cols gap els) = .ok ds ∧ List.Forall₂ (fun q d => q.2.out = ⟨d.parts, d.lines, d.fills⟩) pages ds := by
  have h0 : (CContent.new cols gap els : CContent σ P B C).LeavesOnly := new_leavesOnly cols gap (by intro e he; obtain ⟨c, st, rfl⟩ := hels e he; trivial)
  have hf : (CContent.new cols gap els : CContent σ P B C).finished = false := rfl
  generalize (CContent.new cols gap els : CContent σ P B C) = s at hp h0 hf
  induction rects generalizing s ctx pages with
  | nil => unfold footPages at hp; cases hp; exact ⟨[], [], .nil, rfl, .nil⟩
  | cons r rects ih =>
    obtain ⟨x, y, w, h⟩ := r
    unfold footPages at hp
    cases h1 : addFooted exec notes fuel s (turn ctx) x y w h with
    | error e => rw [h1] at hp; cases hp
    | ok t =>
      obtain ⟨s', ctx', p⟩ := t
      rw [h1] at hp
      have key : ∃ c k, ShorterPage ((x, y, w, h), p) (x, y, w, k) ∧ s.run (exec c) fuel x y w k = .ok s' ∧ p.out = s'.out := by
        obtain ⟨s1, h2, ⟨h3, h4, rfl⟩ | ⟨l1, ctx1, n1, -, -, h3, h4, h5, h6⟩⟩ := addFooted_list h1
        · exact ⟨turn ctx, h, ⟨rfl, rfl, rfl, .inl rfl, by intro L hL; rw [h3] at hL; cases hL⟩, h2, h4⟩
        · refine ⟨ctx1, h - n1.currentHeight - 10, ⟨rfl, rfl, rfl, .inr (by simp only; linarith), ?_⟩, ?_, h5⟩
          · intro L hL
            rcases h6 with h6 | ⟨l2, n2, n3, -, -, -, h6⟩
            · rw [h6] at hL; cases hL
            · rw [h6] at hL
              cases hL
              simp only
              ring
          · rw [restored_run h0 hf h2] at h4
            exact h4
      obtain ⟨c, k, k1, k2, k3⟩ := key
      simp only at hp
      by_cases hfin : s'.finished = true
      · rw [if_pos hfin] at hp
        cases hp
        refine ⟨[(c, x, y, w, k)], [⟨s'.out.parts, s'.out.lines, s'.out.fills, s'.currentHeight, true⟩], .cons k1 .nil, by simp only [ctxDrawings, k2, hfin, if_true], .cons (by rw [k3]) .nil⟩
      · rw [if_neg hfin] at hp
        cases h2 : footPages exec notes turn fuel rects s' ctx' with
        | error e => rw [h2] at hp; cases hp
        | ok ps =>
          rw [h2] at hp
          cases hp
          obtain ⟨short, ds, e1, e2, e3⟩ := ih ctx' ps s' h2 (content_run_kept h0 k2).1 (by simpa using hfin)
          refine ⟨(c, x, y, w, k) :: short, ⟨s'.out.parts, s'.out.lines, s'.out.fills, s'.currentHeight, false⟩ :: ds, .cons k1 e1, by simp only [ctxDrawings, k2, if_neg hfin, e2], .cons (by rw [k3]) e3⟩

end

section
variable {exec : NCtx → σ → Rat → Rat → Rat → Rat → Except PyErr (CellOut σ P B C)}

theorem pageNotes_marks {total : Nat} {ids : P → NPart} {el : Str × Nat → CEl σ} {ctx : NCtx} {ps : List (CPart P)} {marks : List Nat} (hm : marksOn (ps.map (boxPartIds ids)) = marks.map noteName)
    (hlt : ∀ n ∈ marks, n < total) {l : Option (List (CEl σ))} {ctx' : NCtx} (h : pageNotes total ids el ctx ps = .ok (l, ctx')) :
    (marks = [] → l = none) ∧ (marks ≠ [] → l = some (numbered el marks)) := by
  have hids : ps.map (CPart.note ids) = ps.map (boxPartIds ids) := List.map_congr_left (by intro p _; cases p <;> rfl)
  obtain ⟨notes, h1, -, h2, h3⟩ := processNotes_marks (ctx := ctx) hm hlt
  unfold pageNotes at h
  rw [hids, h1] at h
  cases h
  refine ⟨fun hn => by rw [h2.2 hn]; rfl, fun hn => ?_⟩
  rw [h3 hn]
  simp only [Option.map_some, noteList, numbered, List.map_map]
  rfl

theorem pageNotes_el {total : Nat} {ids : P → NPart} {el : Str × Nat → CEl σ} {least : Rat} (hel : ∀ q, NoteEl least (el q)) {ctx ctx' : NCtx} {ps : List (CPart P)} {l : List (CEl σ)}
    (hn : pageNotes total ids el ctx ps = .ok (some l, ctx')) : ∀ e ∈ l, NoteEl least e := by
  unfold pageNotes at hn
  split at hn
  · cases hn
  · rename_i l0 c0 h0
    cases l0 with
    | none => cases hn
    | some l0 =>
      cases hn
      intro e he
      obtain ⟨q, -, rfl⟩ := List.mem_map.1 he
      exact hel q

/-- **C95** with C50: if there are marks on a page, and only then, there is a list below the rule, of the notes of exactly these marks in their order, numbered from 1 -/
theorem C95_listed {m : Rat → Rat → P → P} (hfollow : ∀ ctx, FollowsRect (exec ctx) m) (total : Nat) (ids : P → NPart) (el : Str × Nat → CEl σ) {least : Rat} (hel : ∀ q, NoteEl least (el q)) (fuel : Nat)
    (s s' : CContent σ P B C) (ctx ctx' : NCtx) (x y w h : Rat) (p : FootPage P B C)
    (hp : addFooted exec (pageNotes total ids el) fuel s ctx x y w h = .ok (s', ctx', p)) (marks : List Nat) (hmarks : marksOn (p.out.parts.map (boxPartIds ids)) = marks.map noteName)
    (hlt : ∀ n ∈ marks, n < total) :
    (p.list = none ↔ marks = []) ∧
      ∀ L, p.list = some L → ∃ (d : RunLeft (CPart P) B C) (down : Rat), boxDrawings (exec ctx') fuel [(x, y, w, h)] (CContent.new 1 none (numbered el marks)) = .ok [d] ∧
        L.ruleY - 5 = y - down ∧
        (d.finished = true → (⟨L.out.parts, L.out.lines, L.out.fills, L.height, L.finished⟩ : RunLeft (CPart P) B C) = d.mv (fun dx dy => CPart.mv (m dx dy) dx dy) 0 (-down)) := by
  have hnotes : ∀ ctx ps l ctx', pageNotes total ids el ctx ps = .ok (some l, ctx') → ∀ e ∈ l, NoteEl least e := fun _ _ _ _ => pageNotes_el hel
  have hsome : ∀ L, p.list = some L → marks ≠ [] ∧ ∃ (d : RunLeft (CPart P) B C) (down : Rat), boxDrawings (exec ctx') fuel [(x, y, w, h)] (CContent.new 1 none (numbered el marks)) = .ok [d] ∧
      L.ruleY - 5 = y - down ∧
        (d.finished = true → (⟨L.out.parts, L.out.lines, L.out.fills, L.height, L.finished⟩ : RunLeft (CPart P) B C) = d.mv (fun dx dy => CPart.mv (m dx dy) dx dy) 0 (-down)) := by
    intro L hL
    obtain ⟨-, ctx1, -, l2, d1, d2, -, -, h2, -, h3, h4, h5⟩ := C95_list hfollow hnotes fuel s s' ctx ctx' x y w h p hp L hL
    obtain ⟨k1, k2⟩ := pageNotes_marks hmarks hlt h2
    have hne : marks ≠ [] := fun he => by cases k1 he
    cases k2 hne
    exact ⟨hne, d2, h - d1.height, h3, by rw [h4]; ring, fun hf => by rw [(h5 hf).1]; congr 1; ring⟩
  refine ⟨⟨fun hn => ?_, fun hn => ?_⟩, fun L hL => (hsome L hL).2⟩
  · by_contra hne
    obtain ⟨c, h2⟩ := addFooted_marks hp hn
    have := (pageNotes_marks hmarks hlt h2).2 hne
    cases this
  · cases hL : p.list with
    | none => rfl
    | some L => exact absurd hn (hsome L hL).1

/-- **C95** with C50, the numbers: a page with a list is the section of paragraphs and tables drawn with a context in which the number of a mark is its place among the marks of the
whole page, before there was room for a list. If the marks that are left are the first ones, each shows the number its note has in the list; and the context goes on with these numbers. -/
theorem C95_numbers (total : Nat) (ids : P → NPart) (el : Str × Nat → CEl σ) (fuel : Nat) (s s' : CContent σ P B C) (hleaf : s.LeavesOnly) (hgo : s.finished = false) (ctx ctx' : NCtx) (x y w h : Rat)
    (p : FootPage P B C) (hp : addFooted exec (pageNotes total ids el) fuel s ctx x y w h = .ok (s', ctx', p)) (L : FootList P B C) (hL : p.list = some L) (whole : CContent σ P B C)
    (hwhole : s.run (exec ctx) fuel x y w h = .ok whole) (all marks : List Nat) (hall : marksOn (whole.out.parts.map (boxPartIds ids)) = all.map noteName) (hd : all.Nodup)
    (hlt : ∀ n ∈ all, n < total) (hmarks : marksOn (p.out.parts.map (boxPartIds ids)) = marks.map noteName) (hd' : marks.Nodup) (hlt' : ∀ n ∈ marks, n < total) :
    ∃ (shown : NCtx) (short : Rat), s.run (exec shown) fuel x y w short = .ok s' ∧ s'.out = p.out ∧ L.ruleY + 5 = y - short ∧
      (∀ i n, all[i]? = some n → dget (noteName n) shown = some (i + 1)) ∧ (∀ name, (∀ n ∈ all, name ≠ noteName n) → dget name shown = dget name ctx) ∧
      (∀ i n, marks[i]? = some n → (numbered el marks)[i]? = some (el (natStr (i + 1) ++ c!" ", n)) ∧ dget (noteName n) ctx' = some (i + 1)) ∧
      (marks <+: all → ∀ i n, marks[i]? = some n → dget (noteName n) shown = some (i + 1)) := by
  obtain ⟨s1, h1, ⟨h2, -⟩ | ⟨l1, ctx1, n1, h2, h3, hlt1, hrun, h4, h5⟩⟩ := addFooted_list hp
  · rw [h2] at hL; cases hL
  rcases h5 with h5 | ⟨l2, n2, n3, h5, h6, h7, h8⟩
  · rw [h5] at hL; cases hL
  rw [h8] at hL
  cases hL
  rw [h1] at hwhole
  cases hwhole
  rw [restored_run hleaf hgo h1] at hrun
  have hids : ∀ ps : List (CPart P), ps.map (CPart.note ids) = ps.map (boxPartIds ids) := fun ps => List.map_congr_left (by intro p _; cases p <;> rfl)
  have hctx : ∀ {c c' : NCtx} {ps : List (CPart P)} {l : Option (List (CEl σ))}, pageNotes total ids el c ps = .ok (l, c') → ∀ {ms : List Nat},
      marksOn (ps.map (boxPartIds ids)) = ms.map noteName → ms.Nodup → (∀ n ∈ ms, n < total) →
      (∀ i n, ms[i]? = some n → dget (noteName n) c' = some (i + 1)) ∧ ∀ name, (∀ n ∈ ms, name ≠ noteName n) → dget name c' = dget name c := by
    intro c c' ps l hn ms hms hnd hl
    obtain ⟨notes, c2, e1, -, e2, e3⟩ := C50_listed total _ c ms hms hnd hl
    unfold pageNotes at hn
    rw [hids, e1] at hn
    cases hn
    exact ⟨e2, e3⟩
  obtain ⟨a1, a2⟩ := hctx h2 hall hd hlt
  rw [h4] at hmarks
  obtain ⟨b1, -⟩ := hctx h5 hmarks hd' hlt'
  refine ⟨ctx1, h - n1.currentHeight - 10, hrun, h4.symm, by simp only; ring, a1, a2, fun i n hi => ⟨?_, b1 i n hi⟩, ?_⟩
  · simp [numbered, List.getElem?_zipIdx, hi]
  · rintro ⟨rest, rfl⟩ i n hi
    refine a1 i n ?_
    rw [List.getElem?_append_left (List.getElem?_eq_some_iff.1 hi).1]
    exact hi

/-- **C95** with C50, sections of paragraphs and tables in one column: every mark shows the number that its note has in the list below -/
theorem C95_shown (ids : P → NPart) (hshrink : LeavesShrink exec ids) (area : P → Area) (hexec : ∀ ctx, KeepsArea area (exec ctx)) (total : Nat) (el : Str × Nat → CEl σ) (least : Rat) (hleast : 0 ≤ least)
    (hel : ∀ q, NoteEl least (el q)) (fuel : Nat) (s s' : CContent σ P B C) (hleaf : s.LeavesOnly) (hone : s.cols = 1) (hgo : s.finished = false) (ctx ctx' : NCtx) (x y w h : Rat) (hw : least ≤ w)
    (p : FootPage P B C) (hp : addFooted exec (pageNotes total ids el) fuel s ctx x y w h = .ok (s', ctx', p)) (L : FootList P B C) (hL : p.list = some L) (whole : CContent σ P B C)
    (hwhole : s.run (exec ctx) fuel x y w h = .ok whole) (all : List Nat) (hall : marksOn (whole.out.parts.map (boxPartIds ids)) = all.map noteName) (hd : all.Nodup) (hlt : ∀ n ∈ all, n < total) :
    ∃ (shown : NCtx) (short : Rat) (marks : List Nat), s.run (exec shown) fuel x y w short = .ok s' ∧ s'.out = p.out ∧ L.ruleY + 5 = y - short ∧ marks <+: all ∧
      marksOn (p.out.parts.map (boxPartIds ids)) = marks.map noteName ∧
      ∀ i n, marks[i]? = some n → (numbered el marks)[i]? = some (el (natStr (i + 1) ++ c!" ", n)) ∧ dget (noteName n) shown = some (i + 1) ∧ dget (noteName n) ctx' = some (i + 1) := by
  have hpre : marksOn (p.out.parts.map (boxPartIds ids)) <+: all.map noteName := by
    obtain ⟨s1, h1, ⟨h2, -⟩ | ⟨l1, ctx1, n1, h2, h3, hlt1, hrun, h4, -⟩⟩ := addFooted_list hp
    · rw [h2] at hL; cases hL
    · rw [h1] at hwhole
      cases hwhole
      rw [restored_run hleaf hgo h1] at hrun
      rw [h4, ← hall]
      have hpos : 0 ≤ n1.currentHeight := by
        have hlist : ElIn True least w (.child 1 none l1 ⟨0, 0, 0, 0, none, false, .flow⟩) :=
          .child ⟨le_refl _, le_refl _⟩ (by decide) (by intro g hg; cases hg) (fun _ => rfl) (by rw [columnWidth_one]; exact hw) (fun e he => noteEl_in (pageNotes_el hel h2 e he))
        exact (C86_piled area (exec ctx1) (hexec ctx1) least w hleast 1 none l1 hlist fuel [] (by simp) [] _ n1 rfl x y h h3).2.2.1
      exact content_lower (fun s x y w h h' o o' => hshrink ctx ctx1 s x y w h h' o o') hleaf hone fuel (by linarith) h1 hrun
  obtain ⟨rest, hrest⟩ := hpre
  obtain ⟨marks, others, rfl, hm, -⟩ := List.map_eq_append_iff.1 hrest.symm
  have hd' : marks.Nodup := (List.nodup_append.1 hd).1
  have hlt' : ∀ n ∈ marks, n < total := fun n hn => hlt n (List.mem_append_left _ hn)
  obtain ⟨shown, short, k1, k2, k3, -, -, k4, k5⟩ := C95_numbers total ids el fuel s s' hleaf hgo ctx ctx' x y w h p hp L hL whole hwhole _ marks hall hd hlt hm.symm hd' hlt'
  exact ⟨shown, short, marks, k1, k2, k3, List.prefix_append _ _, hm.symm, fun i n hi => ⟨(k4 i n hi).1, k5 (List.prefix_append _ _) i n hi, (k4 i n hi).2⟩⟩

end

/-! ### pages -/

def footMv (dx dy : Rat) (a : Area) : Area := ⟨a.left + dx, a.right + dx, a.top + dy, a.bottom + dy⟩

theorem block_follows : FollowsRect blockExec footMv := by
  refine ⟨fun p => by simp [footMv], ?_⟩
  intro c x y w h dx dy
  unfold blockExec
  by_cases hh : c ≤ h
  · rw [if_pos hh, if_pos hh]
    simp only [Except.map, List.map_cons, List.map_nil, footMv]
    congr 3
    congr 1 <;> ring
  · rw [if_neg hh, if_neg hh]; rfl

/-- blocks of height 7 have marks; the notes of the first two are blocks of height 12 -/
def markNotes (n : Nat) (ps : List (CPart Area)) : Except PyErr (Option (List (CEl Rat)) × Nat) :=
  let k := min 2 (ps.filter fun p => (cArea id p).top - (cArea id p).bottom = 7).length
  .ok (if k = 0 then none else some (List.replicate k (.leaf 12 ⟨1, 2, 0, 0, none, false, .normal⟩)), n + k)

/-- what is shown: the tops and bottoms of the section; the rule, and the tops and bottoms of the list -/
def footShown (notes : Nat → List (CPart Area) → Except PyErr (Option (List (CEl Rat)) × Nat)) (els : List Rat) (rects : List RunRect) :
    Option (List (List (Rat × Rat) × Option (Rat × List (Rat × Rat)))) :=
  let ends := fun (ps : List (CPart Area)) => ps.map fun p => ((cArea id p).top, (cArea id p).bottom)
  match footPages (fun _ => blockExec) notes id 300 rects (CContent.new 1 none (els.map fun c => .leaf c ⟨1, 2, 0, 0, none, false, .normal⟩)) 0 with
  | .ok ps => some (ps.map fun q => (ends q.2.out.parts, q.2.list.map fun L => (L.ruleY, ends L.out.parts)))
  | .error _ => none

def footRects : List RunRect := List.replicate 4 (10, 120, 60, 100)

set_option synthInstance.maxSize 2000 in
set_option synthInstance.maxHeartbeats 400000 in
/-- pages of height 100 above a lower margin of 20. On the first one the second mark has no room any more above the list: the list has the place of two notes, has one, and does not
end at the lower margin. On the second page it does. The last pages have no footnotes. -/
theorem C95_bottom_false : footShown markNotes [30, 7, 30, 7, 40, 20, 50] footRects =
    some [([(120, 90), (87, 80)], some (52, [(47, 35)])), ([(120, 90), (87, 80)], some (37, [(32, 20)])), ([(120, 80), (77, 57)], none), ([(120, 70)], none)] := by decide +kernel

theorem markNotes_mem (ctx : Nat) (ps : List (CPart Area)) (l : List (CEl Rat)) (ctx' : Nat) (h : markNotes ctx ps = .ok (some l, ctx')) :
    l = [.leaf 12 ⟨1, 2, 0, 0, none, false, .normal⟩] ∨ l = [.leaf 12 ⟨1, 2, 0, 0, none, false, .normal⟩, .leaf 12 ⟨1, 2, 0, 0, none, false, .normal⟩] := by
  unfold markNotes at h
  generalize (ps.filter fun p => (cArea id p).top - (cArea id p).bottom = 7).length = j at h
  have : min 2 j = 0 ∨ min 2 j = 1 ∨ min 2 j = 2 := by omega
  rcases this with e | e | e <;> rw [e] at h <;> cases h
  · exact .inl rfl
  · exact .inr rfl

theorem markNotes_fit : ListsFit (fun _ : Nat => blockExec) markNotes 300 10 120 60 100 := by
  intro ctx ps l ctx' hn n hr
  have h1 : ((CContent.new 1 none [.leaf 12 ⟨1, 2, 0, 0, none, false, .normal⟩] : CContent Rat Area Nat Nat).run blockExec 300 10 120 60 100).toOption.map (·.finished) = some true := by
    decide +kernel
  have h2 : ((CContent.new 1 none [.leaf 12 ⟨1, 2, 0, 0, none, false, .normal⟩, .leaf 12 ⟨1, 2, 0, 0, none, false, .normal⟩] : CContent Rat Area Nat Nat).run blockExec 300 10 120 60 100).toOption.map
      (·.finished) = some true := by
    decide +kernel
  rcases markNotes_mem _ _ _ _ hn with rfl | rfl
  · rw [hr] at h1; exact Option.some.inj h1
  · rw [hr] at h2; exact Option.some.inj h2

theorem markNotes_el (ctx : Nat) (ps : List (CPart Area)) (l : List (CEl Rat)) (ctx' : Nat) (h : markNotes ctx ps = .ok (some l, ctx')) : ∀ e ∈ l, NoteEl 40 e := by
  have tidy : StyleTidy ⟨1, 2, 0, 0, none, false, .normal⟩ := ⟨by norm_num, by norm_num, le_refl _, le_refl _⟩
  rcases markNotes_mem _ _ _ _ h with rfl | rfl <;> intro e he <;> simp only [List.mem_cons, List.not_mem_nil, or_false, or_self] at he <;> rw [he] <;> exact tidy

def footEls : List (CEl Rat) := [30, 7, 30, 7, 40, 20, 50].map fun c => .leaf c ⟨1, 2, 0, 0, none, false, .normal⟩

theorem footEls_leaf : ∀ e ∈ footEls, ∃ c st, e = .leaf c st := by
  intro e he
  obtain ⟨c, -, rfl⟩ := List.mem_map.1 he
  exact ⟨_, _, rfl⟩

/-- the pages above -/
example (pages : List (RunRect × FootPage Area Nat Nat)) (hp : footPages (fun _ => blockExec) markNotes id 300 footRects (CContent.new 1 none footEls) 0 = .ok pages) :
    ∀ q ∈ pages, FootPageIn id q.1 q.2 :=
  C95_pages id (fun _ => block_keeps) 40 (by norm_num) markNotes_el id 300 none footEls (by intro g hg; cases hg)
    (by intro e he
        obtain ⟨c, -, rfl⟩ := List.mem_map.1 he
        exact .leaf ⟨by norm_num, by norm_num, le_refl _, le_refl _⟩)
    footRects (by intro r hr; rw [List.eq_of_mem_replicate hr]; exact ⟨by norm_num, markNotes_fit⟩) 0 pages hp

example (pages : List (RunRect × FootPage Area Nat Nat)) (hp : footPages (fun _ => blockExec) markNotes id 300 footRects (CContent.new 1 none footEls) 0 = .ok pages) :
    ∃ (short : List (Nat × RunRect)) (ds : List (RunLeft (CPart Area) Nat Nat)), List.Forall₂ (fun q r => ShorterPage q r.2) pages short ∧
      ctxDrawings (fun _ => blockExec) 300 short (CContent.new 1 none footEls) = .ok ds ∧ List.Forall₂ (fun q d => q.2.out = ⟨d.parts, d.lines, d.fills⟩) pages ds :=
  C95_shorter id 300 1 none footEls footEls_leaf footRects 0 pages hp

example (s' : CContent Rat Area Nat Nat) (n : Nat) (p : FootPage Area Nat Nat) (L : FootList Area Nat Nat)
    (hp : addFooted (fun _ => blockExec) markNotes 300 (CContent.new 1 none footEls) 0 10 120 60 100 = .ok (s', n, p)) (hL : p.list = some L) :
    ∃ (d1 d2 : RunLeft (CPart Area) Nat Nat), L.ruleY = 25 + d1.height ∧
      (d2.finished = true → L.out.parts = d2.parts.map (CPart.mv (footMv 0 (d1.height - 100)) 0 (d1.height - 100))) := by
  obtain ⟨-, -, -, -, d1, d2, -, -, -, -, -, h1, h2⟩ := C95_list (fun _ => block_follows) markNotes_el 300 _ s' 0 n 10 120 60 100 p hp L hL
  exact ⟨d1, d2, by rw [h1]; ring, fun hf => congrArg RunLeft.parts (h2 hf).1⟩

/-- blocks of height 7 and 8 are the marks of the footnotes 0 and 1 -/
def markIds (a : Area) : NPart := .paragraph (if a.top - a.bottom = 7 then [(noteName 0, 1)] else if a.top - a.bottom = 8 then [(noteName 1, 1)] else [])

/-- footnote 0 has the height 12, footnote 1 the height 15; the number is not seen here -/
def markEl (q : Str × Nat) : CEl Rat := .leaf (12 + 3 * q.2) ⟨1, 2, 0, 0, none, false, .normal⟩

/-- the marks come in the order 1, 0: so do the notes -/
example (s' : CContent Rat Area Nat Nat) (ctx : NCtx) (p : FootPage Area Nat Nat)
    (hp : addFooted (fun _ => blockExec) (pageNotes 2 markIds markEl) 300 (CContent.new 1 none ([30, 8, 7].map fun c => .leaf c ⟨1, 2, 0, 0, none, false, .normal⟩)) [] 10 120 60 100 = .ok (s', ctx, p))
    (hmarks : marksOn (p.out.parts.map (boxPartIds markIds)) = [1, 0].map noteName) :
    ∃ L, p.list = some L ∧ ∃ (d : RunLeft (CPart Area) Nat Nat) (down : Rat), boxDrawings blockExec 300 [(10, 120, 60, 100)] (CContent.new 1 none (numbered markEl [1, 0])) = .ok [d] ∧
      L.ruleY - 5 = 120 - down ∧ (d.finished = true → L.out.parts = d.parts.map (CPart.mv (footMv 0 (-down)) 0 (-down))) := by
  have hel : ∀ q, NoteEl (0 : Rat) (markEl q) := fun q => ⟨by norm_num, by norm_num, le_refl _, le_refl _⟩
  obtain ⟨h1, h2⟩ := C95_listed (fun _ => block_follows) 2 markIds markEl hel 300 _ s' [] ctx 10 120 60 100 p hp [1, 0] hmarks (by decide)
  cases hL : p.list with
  | none => exact absurd (h1.1 hL) (by decide)
  | some L =>
    obtain ⟨d, down, k1, k2, k3⟩ := h2 L hL
    exact ⟨L, rfl, d, down, k1, k2, fun hf => congrArg RunLeft.parts (k3 hf)⟩

/-- that page is drawn with a context where footnote 1 has the number 1, and footnote 0 the number 2 -/
example (s' whole : CContent Rat Area Nat Nat) (ctx : NCtx) (p : FootPage Area Nat Nat) (L : FootList Area Nat Nat)
    (hp : addFooted (fun _ => blockExec) (pageNotes 2 markIds markEl) 300 (CContent.new 1 none ([30, 8, 7].map fun c => .leaf c ⟨1, 2, 0, 0, none, false, .normal⟩)) [] 10 120 60 100 = .ok (s', ctx, p))
    (hL : p.list = some L) (hw : (CContent.new 1 none ([30, 8, 7].map fun c => .leaf c ⟨1, 2, 0, 0, none, false, .normal⟩)).run blockExec 300 10 120 60 100 = .ok whole)
    (hall : marksOn (whole.out.parts.map (boxPartIds markIds)) = [1, 0].map noteName) (hmarks : marksOn (p.out.parts.map (boxPartIds markIds)) = [1, 0].map noteName) :
    ∃ shown : NCtx, dget (noteName 1) shown = some 1 ∧ dget (noteName 0) shown = some 2 ∧ dget (noteName 0) ctx = some 2 := by
  obtain ⟨shown, -, -, -, -, h1, -, h2, -⟩ := C95_numbers (exec := fun _ => blockExec) 2 markIds markEl 300 _ s' (new_leavesOnly 1 none (by
      intro e he
      obtain ⟨c, -, rfl⟩ := List.mem_map.1 he
      trivial)) rfl [] ctx 10 120 60 100 p hp L hL whole hw [1, 0] [1, 0] hall (by decide) (by decide) hmarks (by decide) (by decide)
  exact ⟨shown, h1 0 1 rfl, h1 1 0 rfl, (h2 1 0 rfl).2⟩

theorem block_shrink (ids : Area → NPart) : LeavesShrink (fun _ : NCtx => (blockExec : Rat → Rat → Rat → Rat → Rat → Except PyErr (CellOut Rat Area Nat Nat))) ids := by
  intro c c' s x y w h h' o o' hh h1 h2
  simp only [blockExec] at h1 h2
  by_cases k : s ≤ h'
  · rw [if_pos k] at h2
    rw [if_pos (le_trans k hh)] at h1
    cases h1; cases h2
    exact ⟨List.prefix_refl _, fun _ => ⟨rfl, rfl, rfl⟩⟩
  · rw [if_neg k] at h2
    cases h2
    exact ⟨List.nil_prefix, by intro hf; cases hf⟩

/-- the first page of `C95_bottom_false`, with footnotes 0 and 1: the mark of footnote 1 has no room any more, and the other shows a 1 -/
example (s' whole : CContent Rat Area Nat Nat) (ctx : NCtx) (p : FootPage Area Nat Nat) (L : FootList Area Nat Nat)
    (hp : addFooted (fun _ => blockExec) (pageNotes 2 markIds markEl) 300 (CContent.new 1 none ([30, 7, 30, 8].map fun c => .leaf c ⟨1, 2, 0, 0, none, false, .normal⟩)) [] 10 120 60 100 = .ok (s', ctx, p))
    (hL : p.list = some L) (hw : (CContent.new 1 none ([30, 7, 30, 8].map fun c => .leaf c ⟨1, 2, 0, 0, none, false, .normal⟩)).run blockExec 300 10 120 60 100 = .ok whole)
    (hall : marksOn (whole.out.parts.map (boxPartIds markIds)) = [0, 1].map noteName) :
    ∃ (shown : NCtx) (marks : List Nat), marks <+: [0, 1] ∧ ∀ i n, marks[i]? = some n → dget (noteName n) shown = some (i + 1) := by
  obtain ⟨shown, -, marks, -, -, -, h1, -, h2⟩ := C95_shown (exec := fun _ => blockExec) markIds (block_shrink markIds) id (fun _ => block_keeps) 2 markEl 40 (by norm_num)
    (fun q => ⟨by norm_num, by norm_num, le_refl _, le_refl _⟩) 300 _ s' (new_leavesOnly 1 none (by
      intro e he
      obtain ⟨c, -, rfl⟩ := List.mem_map.1 he
      trivial)) rfl rfl [] ctx 10 120 60 100 (by norm_num) p hp L hL whole hw [0, 1] hall (by decide) (by decide)
  exact ⟨shown, marks, h1, fun i n hi => (h2 i n hi).2.1⟩

/-- the page with the marks 1, 0 -/
def listedPage : Option (List Str × Option (Rat × List (Rat × Rat))) :=
  match addFooted (fun _ => blockExec) (pageNotes 2 markIds markEl) 300 (CContent.new 1 none ([30, 8, 7].map fun c => .leaf c ⟨1, 2, 0, 0, none, false, .normal⟩)) [] 10 120 60 100 with
  | .ok (_, _, p) => some (marksOn (p.out.parts.map (boxPartIds markIds)), p.list.map fun L => (L.ruleY, L.out.parts.map fun q => ((cArea id q).top, (cArea id q).bottom)))
  | .error _ => none

set_option synthInstance.maxSize 2000 in
set_option synthInstance.maxHeartbeats 400000 in
example : listedPage = some ([noteName 1, noteName 0], some (55, [(50, 35), (32, 20)])) := by decide +kernel

set_option synthInstance.maxSize 2000 in
set_option synthInstance.maxHeartbeats 400000 in
/-- a list that has no room on a page, of notes with the heights 30 and 80, but whose first note is small: there is no exception. The height of the first note is left free, and there
what was not measured is shown: the second note, from 50 down to -30, below the page; the first note is not shown. -/
theorem C95_room_false :
    footShown (fun n _ => .ok (some [.leaf 30 ⟨1, 2, 0, 0, none, false, .normal⟩, .leaf 80 ⟨1, 2, 0, 0, none, false, .normal⟩], n)) [20, 7] [(10, 120, 60, 100)] =
      some [([(120, 100), (97, 90)], some (55, [(50, -30)]))] := by decide +kernel

end Verif
