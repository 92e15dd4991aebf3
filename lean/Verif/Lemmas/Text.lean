import Verif.Spec.TextWords
import Verif.Model.Text
import Mathlib.Tactic.Ring
import Mathlib.Algebra.Order.Field.Rat
import Mathlib.Tactic.Linarith
/-! Facts about the line breaking of `Model.Text`. -/
namespace Verif

/-- the pieces of a part -/
def TPart.pieces (p : TPart) : List Piece := p.words.map fun w => (w, p.look, p.ids)

/-- the pieces of a list of parts -/
def pieces (l : List TPart) : List Piece := l.flatMap TPart.pieces

@[simp] theorem pieces_nil : pieces [] = [] := rfl
@[simp] theorem pieces_cons (p : TPart) (l : List TPart) : pieces (p :: l) = p.pieces ++ pieces l := rfl
@[simp] theorem pieces_append (a b : List TPart) : pieces (a ++ b) = pieces a ++ pieces b := by
  simp [pieces]

/-- the accumulated widths are those of the words -/
def TPart.Ok (M : Metrics) (p : TPart) : Prop :=
  p.width = ((p.words.filter (· ≠ c!" ")).map (wordWidth M p.look.st)).sum ∧
  p.spaces = ((p.words.filter (· = c!" ")).map (wordWidth M p.look.st)).sum

theorem TPart.new_ok (M : Metrics) (look : TLook) (ids : Option (List Str)) : (TPart.new look ids).Ok M := by
  simp [TPart.Ok, TPart.new]

theorem TPart.addWord_ok (M : Metrics) (p : TPart) (w : Str) (h : p.Ok M) : (p.addWord M w).Ok M := by
  obtain ⟨h1, h2⟩ := h
  by_cases hw : w = c!" "
  · subst hw
    constructor
    · simp only [TPart.addWord, if_pos]
      rw [List.filter_append]
      simpa using h1
    · simp only [TPart.addWord, if_pos]
      rw [List.filter_append, List.map_append, List.sum_append, ← h2]
      simp [TPart.spaceWidth]
  · constructor
    · simp only [TPart.addWord, if_neg hw]
      rw [List.filter_append, List.map_append, List.sum_append, ← h1]
      simp [hw]
    · simp only [TPart.addWord, if_neg hw]
      rw [List.filter_append]
      simpa [hw] using h2

@[simp] theorem TPart.addWord_words (M : Metrics) (p : TPart) (w : Str) :
    (p.addWord M w).words = p.words ++ [w] := by
  unfold TPart.addWord; split <;> rfl
@[simp] theorem TPart.addWord_look (M : Metrics) (p : TPart) (w : Str) : (p.addWord M w).look = p.look := by
  unfold TPart.addWord; split <;> rfl
@[simp] theorem TPart.addWord_ids (M : Metrics) (p : TPart) (w : Str) : (p.addWord M w).ids = p.ids := by
  unfold TPart.addWord; split <;> rfl

theorem TPart.pieces_addWord (M : Metrics) (p : TPart) (w : Str) :
    (p.addWord M w).pieces = p.pieces ++ [(w, p.look, p.ids)] := by
  simp [TPart.pieces]

theorem TPart.foldl_addWord (M : Metrics) (ws : List Str) : ∀ (p : TPart),
    (ws.foldl (TPart.addWord M) p).words = p.words ++ ws ∧
    (ws.foldl (TPart.addWord M) p).look = p.look ∧ (ws.foldl (TPart.addWord M) p).ids = p.ids ∧
    (p.Ok M → (ws.foldl (TPart.addWord M) p).Ok M) := by
  induction ws with
  | nil => intro p; simp
  | cons w ws ih =>
    intro p
    obtain ⟨h1, h2, h3, h4⟩ := ih (p.addWord M w)
    refine ⟨by simp [h1], by simp [h2], by simp [h3], fun h => h4 (p.addWord_ok M w h)⟩

/-- removing the trailing blank of a part -/
theorem TPart.popWord_blank (M : Metrics) (p : TPart) (ws : List Str) (h : p.words = ws ++ [c!" "]) (hok : p.Ok M) :
    (p.popWord M).words = ws ∧ (p.popWord M).look = p.look ∧ (p.popWord M).ids = p.ids ∧ (p.popWord M).Ok M := by
  obtain ⟨h1, h2⟩ := hok
  have hl : p.words.getLast? = some c!" " := by rw [h]; simp
  rw [h] at h1 h2
  unfold TPart.popWord
  rw [hl]
  simp only [if_pos]
  refine ⟨by rw [h]; simp, by trivial, by trivial, ?_, ?_⟩
  · simp only [h, List.dropLast_concat]
    rw [h1, List.filter_append]; simp
  · simp only [h, List.dropLast_concat]
    rw [h2, List.filter_append, List.map_append, List.sum_append]
    simp [TPart.spaceWidth]

theorem onLast_append (f : TPart → TPart) (init : List TPart) (p : TPart) :
    onLast f (init ++ [p]) = init ++ [f p] := by
  induction init with
  | nil => rfl
  | cons a l ih =>
    cases l with
    | nil => rfl
    | cons b l => simp only [List.cons_append] at ih ⊢; rw [onLast, ih]

/-- the last part of a list has this style and these ids -/
def HasLast (l : List TPart) (look : TLook) (ids : Option (List Str)) : Prop :=
  ∃ init p, l = init ++ [p] ∧ p.look = look ∧ p.ids = ids

/-- what holds of a line between two elements of the content -/
structure TLine.Wf (M : Metrics) (l : TLine) : Prop where
  notStarted : l.started = false → l.parts = []
  start : l.started = true → ∃ init p ws n nx, l.parts = init ++ [p] ∧ p.words = ws ++ [c!" "] ∧
    l.next = n :: nx ∧ n.look = p.look ∧ n.ids = p.ids
  fresh : l.started = false → l.firstWord = false → pieces l.next = []
  lastSp : l.started = true → l.lastSpace = true → pieces l.next = []
  noBlank : ∀ t ∈ pieces l.next, strIsSpace t.1 = false
  okParts : ∀ p ∈ l.parts, p.Ok M
  okNext : ∀ p ∈ l.next, p.Ok M

theorem TLine.new_wf (M : Metrics) (w : Rat) (al : Str) (tm : Rat) : (TLine.new w al tm).Wf M := by
  constructor <;> simp [TLine.new]

theorem TLine.addLinePart_wf (M : Metrics) (l : TLine) (look : TLook) (ids : Option (List Str)) (h : l.Wf M) :
    (l.addLinePart look ids).Wf M ∧ HasLast (l.addLinePart look ids).next look ids ∧
    pieces (l.addLinePart look ids).next = pieces l.next := by
  have hp : pieces (l.addLinePart look ids).next = pieces l.next := by
    simp [TLine.addLinePart, TPart.pieces, TPart.new]
  refine ⟨⟨h.notStarted, ?_, ?_, ?_, ?_, h.okParts, ?_⟩, ⟨l.next, _, rfl, rfl, rfl⟩, hp⟩
  · intro hs
    obtain ⟨init, p, ws, n, nx, e1, e2, e3, e4, e5⟩ := h.start hs
    exact ⟨init, p, ws, n, nx ++ [TPart.new look ids], e1, e2, by simp [TLine.addLinePart, e3], e4, e5⟩
  · intro a b; rw [hp]; exact h.fresh a b
  · intro a b; rw [hp]; exact h.lastSp a b
  · rw [hp]; exact h.noBlank
  · intro p hp'
    simp only [TLine.addLinePart, List.mem_append, List.mem_singleton] at hp'
    rcases hp' with hp' | rfl
    · exact h.okNext p hp'
    · exact TPart.new_ok M look ids

theorem pieces_onLast_addWord (M : Metrics) (l : List TPart) (look : TLook) (ids : Option (List Str)) (w : Str)
    (h : HasLast l look ids) :
    pieces (onLast (fun p => p.addWord M w) l) = pieces l ++ [(w, look, ids)] ∧
    HasLast (onLast (fun p => p.addWord M w) l) look ids ∧
    ((∀ p ∈ l, p.Ok M) → ∀ p ∈ onLast (fun p => p.addWord M w) l, p.Ok M) ∧
    (∀ n nx, l = n :: nx → ∃ n' nx', onLast (fun p => p.addWord M w) l = n' :: nx' ∧ n'.look = n.look ∧ n'.ids = n.ids) := by
  obtain ⟨init, p, rfl, rfl, rfl⟩ := h
  rw [onLast_append]
  refine ⟨?_, ⟨init, _, rfl, by simp, by simp⟩, ?_, ?_⟩
  · simp [TPart.pieces_addWord]
  · intro hok q hq
    simp only [List.mem_append, List.mem_singleton] at hq
    rcases hq with hq | rfl
    · exact hok q (by simp [hq])
    · exact TPart.addWord_ok M p w (hok p (by simp))
  · intro n nx e
    cases init with
    | nil =>
      simp only [List.nil_append, List.cons.injEq] at e
      obtain ⟨rfl, rfl⟩ := e
      exact ⟨_, [], rfl, by simp, by simp⟩
    | cons a t =>
      simp only [List.cons_append, List.cons.injEq] at e
      obtain ⟨rfl, rfl⟩ := e
      exact ⟨a, _, rfl, rfl, rfl⟩

/-- what `add_accumulated` does -/
theorem addAccumulated_spec (M : Metrics) (l : TLine) (look : TLook) (ids : Option (List Str))
    (hl : HasLast l.next look ids)
    (hp : l.parts = [] ∨ ∃ init p n nx, l.parts = init ++ [p] ∧ l.next = n :: nx ∧ n.look = p.look ∧ n.ids = p.ids)
    (ok1 : ∀ p ∈ l.parts, p.Ok M) (ok2 : ∀ p ∈ l.next, p.Ok M) :
    ∃ init p ws, l.addAccumulated M = { l with parts := init ++ [p], next := [TPart.new look ids] } ∧
      p.words = ws ++ [c!" "] ∧ p.look = look ∧ p.ids = ids ∧
      pieces (init ++ [p]) = pieces l.parts ++ pieces l.next ++ [(c!" ", look, ids)] ∧
      ∀ q ∈ init ++ [p], q.Ok M := by
  -- the merged list
  have key : ∀ (m : List TPart), (∃ init p, m = init ++ [p] ∧ p.look = look ∧ p.ids = ids) →
      pieces m = pieces l.parts ++ pieces l.next → (∀ q ∈ m, q.Ok M) →
      ∃ init p ws, (TLine.mk l.maxWidth l.align (onLast (fun p => p.addWord M c!" ") m) l.topMargin
          (match (onLast (fun p => p.addWord M c!" ") m).getLast? with
          | none => l.next
          | some p => [TPart.new p.look p.ids]) l.lastSpace l.firstWord l.started)
        = { l with parts := init ++ [p], next := [TPart.new look ids] } ∧
        p.words = ws ++ [c!" "] ∧ p.look = look ∧ p.ids = ids ∧
        pieces (init ++ [p]) = pieces l.parts ++ pieces l.next ++ [(c!" ", look, ids)] ∧
        ∀ q ∈ init ++ [p], q.Ok M := by
    rintro m ⟨init, p, rfl, e1, e2⟩ hpc hok
    rw [onLast_append]
    refine ⟨init, p.addWord M c!" ", p.words, ?_, by simp, by simp [e1], by simp [e2], ?_, ?_⟩
    · simp [e1, e2]
    · rw [pieces_append, pieces_cons, pieces_nil, TPart.pieces_addWord, e1, e2, ← hpc]
      simp
    · intro q hq
      simp only [List.mem_append, List.mem_singleton] at hq
      rcases hq with hq | rfl
      · exact hok q (by simp [hq])
      · exact TPart.addWord_ok M p _ (hok p (by simp))
  rcases hp with hp | ⟨init, p, n, nx, e1, e2, e3, e4⟩
  · obtain ⟨i0, p0, e0, e0', e0''⟩ := hl
    have := key l.next ⟨i0, p0, e0, e0', e0''⟩ (by simp [hp]) ok2
    obtain ⟨init, p, ws, h1, h2⟩ := this
    refine ⟨init, p, ws, ?_, h2⟩
    rw [← h1]
    unfold TLine.addAccumulated
    rw [hp]; rfl
  · obtain ⟨f1, f2, f3, f4⟩ := TPart.foldl_addWord M n.words p
    have hq : l.parts ≠ [] := by rw [e1]; simp
    have hm : (∃ i q, (init ++ [n.words.foldl (TPart.addWord M) p]) ++ nx = i ++ [q] ∧ q.look = look ∧ q.ids = ids) := by
      obtain ⟨i0, p0, e0, e0', e0''⟩ := hl
      rcases List.eq_nil_or_concat nx with hn | ⟨nx', q, hn⟩
      · subst hn
        rw [e2] at e0
        have : i0 = [] ∧ p0 = n := by
          cases i0 with
          | nil => simp at e0; exact ⟨rfl, e0.symm⟩
          | cons a t => simp at e0
        obtain ⟨rfl, rfl⟩ := this
        exact ⟨init, p0.words.foldl (TPart.addWord M) p, by rw [List.append_nil], by rw [f2, ← e3, e0'], by rw [f3, ← e4, e0'']⟩
      · rw [List.concat_eq_append] at hn
        subst hn
        rw [e2, ← List.cons_append] at e0
        have := List.append_inj' e0 (by simp)
        obtain ⟨_, h⟩ := this
        simp only [List.cons.injEq, and_true] at h
        subst h
        exact ⟨init ++ [n.words.foldl (TPart.addWord M) p] ++ nx', q, by simp, e0', e0''⟩
    have := key _ hm (by
      rw [e1, e2]
      simp only [pieces_append, pieces_cons, pieces_nil, List.append_nil, List.append_assoc]
      rw [TPart.pieces, f1, f2, f3, TPart.pieces, TPart.pieces, e3, e4]
      simp) (by
      intro q hq
      simp only [List.mem_append, List.mem_singleton] at hq
      rcases hq with (hq | rfl) | hq
      · exact ok1 q (by simp [e1, hq])
      · exact f4 (ok1 p (by simp [e1]))
      · exact ok2 q (by simp [e2, hq]))
    obtain ⟨init', p', ws, h1, h2⟩ := this
    refine ⟨init', p', ws, ?_, h2⟩
    have hmm : mergeParts M l.parts l.next = (init ++ [n.words.foldl (TPart.addWord M) p]) ++ nx := by
      rw [← onLast_append (fun q => n.words.foldl (TPart.addWord M) q) init p, ← e1, e2]
      cases hpp : l.parts with
      | nil => exact absurd hpp hq
      | cons a t => rfl
    rw [← h1, ← hmm]; rfl

/-- the styles of the parts of a list -/
def looks (l : List TPart) : List TLook := l.map TPart.look

theorem looks_onLast (f : TPart → TPart) (hf : ∀ p, (f p).look = p.look) (l : List TPart) : looks (onLast f l) = looks l := by
  rcases List.eq_nil_or_concat l with rfl | ⟨i, p, rfl⟩
  · rfl
  · rw [List.concat_eq_append, onLast_append]; simp [looks, hf]

theorem looks_mergeParts (M : Metrics) (a b : List TPart) : ∀ x ∈ looks (mergeParts M a b), x ∈ looks a ++ looks b := by
  intro x hx
  cases a with
  | nil => simpa [mergeParts, looks] using hx
  | cons p a =>
    cases b with
    | nil => simp only [mergeParts] at hx; simp [hx]
    | cons n b =>
      have e : looks (mergeParts M (p :: a) (n :: b)) = looks (p :: a) ++ looks b := by
        simp only [mergeParts]
        rw [looks, List.map_append, ← looks, looks_onLast _ (fun q => (TPart.foldl_addWord M n.words q).2.1)]
        rfl
      rw [e, List.mem_append] at hx
      rcases hx with hx | hx
      · simp [hx]
      · have : x ∈ looks (n :: b) := by simp only [looks, List.map_cons, List.mem_cons]; right; exact hx
        simp [this]

theorem looks_addAccumulated (M : Metrics) (l : TLine) :
    ∀ x ∈ looks (l.addAccumulated M).parts ++ looks (l.addAccumulated M).next, x ∈ looks l.parts ++ looks l.next := by
  intro x hx
  have h1 : looks (l.addAccumulated M).parts = looks (mergeParts M l.parts l.next) := by
    unfold TLine.addAccumulated
    exact looks_onLast _ (fun p => TPart.addWord_look M p _) _
  have h2 : ∀ y ∈ looks (l.addAccumulated M).next, y ∈ looks (l.addAccumulated M).parts ∨ y ∈ looks l.next := by
    intro y hy
    unfold TLine.addAccumulated at hy ⊢
    simp only at hy ⊢
    split at hy
    · right; exact hy
    · rename_i p hp
      left
      simp only [looks, List.map_cons, List.map_nil, List.mem_singleton, TPart.new] at hy
      rw [hy]
      exact List.mem_map_of_mem (List.mem_of_getLast? hp)
  rw [List.mem_append] at hx
  rcases hx with hx | hx
  · rw [h1] at hx; exact looks_mergeParts M _ _ x hx
  · rcases h2 x hx with hx | hx
    · rw [h1] at hx; exact looks_mergeParts M _ _ x hx
    · simp [hx]

/-- the outcomes of `add_word` -/
inductive AddCase (M : Metrics) (l : TLine) (w : Str) (look : TLook) (ids : Option (List Str)) :
    TLine → AddRes → Prop
  | first (l' : TLine) (hw : strIsSpace w = false) (hs : l.started = false) (hs' : l'.started = false)
      (hp : l'.parts = l.parts) (hn : pieces l'.next = pieces l.next ++ [(w, look, ids)])
      (hm : l'.maxWidth = l.maxWidth ∧ l'.align = l.align ∧ l'.topMargin = l.topMargin)
      (wf : l'.Wf M) (hl : HasLast l'.next look ids)
      (hlk : ∀ x ∈ looks l'.parts ++ looks l'.next, x ∈ looks l.parts ++ looks l.next) : AddCase M l w look ids l' .added
  | accum (l' : TLine) (hw : strIsSpace w = true)
      (hc : (l.started = false ∧ l.firstWord = true) ∨ (l.started = true ∧ l.lastSpace = false))
      (hs' : l'.started = true)
      (hp : pieces l'.parts = pieces l.parts ++ pieces l.next ++ [(c!" ", look, ids)])
      (hn : pieces l'.next = [])
      (hm : l'.maxWidth = l.maxWidth ∧ l'.align = l.align ∧ l'.topMargin = l.topMargin)
      (wf : l'.Wf M) (hl : HasLast l'.next look ids)
      (hlk : ∀ x ∈ looks l'.parts ++ looks l'.next, x ∈ looks l.parts ++ looks l.next) : AddCase M l w look ids l' .added
  | ignored (hw : strIsSpace w = true)
      (hc : (l.started = false ∧ l.firstWord = false) ∨ (l.started = true ∧ l.lastSpace = true)) :
      AddCase M l w look ids l .ignored
  | preadded (l' : TLine) (hw : strIsSpace w = false) (hs : l.started = true) (hs' : l'.started = true)
      (hp : l'.parts = l.parts) (hn : pieces l'.next = pieces l.next ++ [(w, look, ids)])
      (hm : l'.maxWidth = l.maxWidth ∧ l'.align = l.align ∧ l'.topMargin = l.topMargin)
      (hfit : minWidth l'.align l'.parts + minWidth l'.align l'.next < l'.maxWidth)
      (wf : l'.Wf M) (hl : HasLast l'.next look ids)
      (hlk : ∀ x ∈ looks l'.parts ++ looks l'.next, x ∈ looks l.parts ++ looks l.next) : AddCase M l w look ids l' .preadded
  | finished (l' nl : TLine) (hw : strIsSpace w = false) (hs : l.started = true)
      (hp : ∃ t, pieces l.parts = pieces l'.parts ++ [t] ∧ t.1 = c!" ")
      (hn : l'.next = [])
      (hm : l'.maxWidth = l.maxWidth ∧ l'.align = l.align ∧ l'.topMargin = l.topMargin)
      (hok : ∀ p ∈ l'.parts, p.Ok M) (hlast : ∃ i p, l'.parts = i ++ [p])
      (ns : nl.started = false) (nf : nl.firstWord = true) (np : nl.parts = []) (na : nl.align = l.align)
      (nt : nl.topMargin = bottomLoop l'.parts 0)
      (nn : pieces nl.next = pieces l.next ++ [(w, look, ids)])
      (wf : nl.Wf M) (hl : HasLast nl.next look ids)
      (hlk : ∀ x ∈ looks l'.parts ++ looks nl.next, x ∈ looks l.parts ++ looks l.next) : AddCase M l w look ids l' (.finished nl)

theorem addWord_cases (M : Metrics) (l : TLine) (w : Str) (look : TLook) (ids : Option (List Str))
    (h : l.Wf M) (hl : HasLast l.next look ids) :
    AddCase M l w look ids (l.addWord M w).1 (l.addWord M w).2 := by
  obtain ⟨ha1, ha2, ha3, ha4⟩ := pieces_onLast_addWord M l.next look ids w hl
  have hlkn : looks (onLast (fun p => p.addWord M w) l.next) = looks l.next :=
    looks_onLast _ (fun p => TPart.addWord_look M p w) _
  have hnb : ∀ (hw : strIsSpace w = false), ∀ t ∈ pieces (onLast (fun p => p.addWord M w) l.next), strIsSpace t.1 = false := by
    intro hw t ht
    rw [ha1] at ht
    simp only [List.mem_append, List.mem_singleton] at ht
    rcases ht with ht | rfl
    · exact h.noBlank t ht
    · exact hw
  cases hs : l.started with
  | false =>
    cases hw : strIsSpace w with
    | true =>
      cases hf : l.firstWord with
      | false =>
        have : l.addWord M w = (l, .ignored) := by simp [TLine.addWord, hs, hw, hf]
        rw [this]
        exact .ignored hw (Or.inl ⟨hs, hf⟩)
      | true =>
        have : l.addWord M w = ({ l with started := true }.addAccumulated M, .added) := by
          simp [TLine.addWord, hs, hw, hf]
        rw [this]
        obtain ⟨init, p, ws, e, e1, e2, e3, e4, e5⟩ :=
          addAccumulated_spec M { l with started := true } look ids hl (Or.inl (h.notStarted hs)) h.okParts h.okNext
        simp only [e]
        refine .accum _ hw (Or.inl ⟨hs, hf⟩) rfl e4 (by simp [TPart.pieces, TPart.new]) ⟨rfl, rfl, rfl⟩ ?_ ⟨[], _, rfl, rfl, rfl⟩
          (by have := looks_addAccumulated M { l with started := true }; rw [e] at this; exact this)
        refine ⟨by simp, ?_, by simp, ?_, by simp [TPart.pieces, TPart.new], e5, ?_⟩
        · intro _
          exact ⟨init, p, ws, _, [], rfl, e1, rfl, by simp [TPart.new, e2], by simp [TPart.new, e3]⟩
        · intro _ _; simp [TPart.pieces, TPart.new]
        · intro q hq
          simp only [List.mem_singleton] at hq
          subst hq; exact TPart.new_ok M look ids
    | false =>
      have : l.addWord M w = ({ l with firstWord := true, next := onLast (fun p => p.addWord M w) l.next }, .added) := by
        simp [TLine.addWord, hs, hw]
      rw [this]
      refine .first _ hw hs hs rfl ha1 ⟨rfl, rfl, rfl⟩ ?_ ha2 (by simp only [hlkn]; exact fun x hx => hx)
      refine ⟨h.notStarted, ?_, by simp, ?_, hnb hw, h.okParts, ha3 h.okNext⟩
      · intro hs'; simp only [hs] at hs'; cases hs'
      · intro hs'; simp only [hs] at hs'; cases hs'
  | true =>
    obtain ⟨init, p, ws, n, nx, e1, e2, e3, e4, e5⟩ := h.start hs
    cases hw : strIsSpace w with
    | true =>
      cases hf : l.lastSpace with
      | true =>
        have : l.addWord M w = (l, .ignored) := by simp [TLine.addWord, hs, hw, hf]
        rw [this]
        exact .ignored hw (Or.inr ⟨hs, hf⟩)
      | false =>
        have : l.addWord M w = (l.addAccumulated M, .added) := by simp [TLine.addWord, hs, hw, hf]
        rw [this]
        obtain ⟨init', p', ws', g, g1, g2, g3, g4, g5⟩ :=
          addAccumulated_spec M l look ids hl (Or.inr ⟨init, p, n, nx, e1, e3, e4, e5⟩) h.okParts h.okNext
        simp only [g]
        refine .accum _ hw (Or.inr ⟨hs, hf⟩) hs g4 (by simp [TPart.pieces, TPart.new]) ⟨rfl, rfl, rfl⟩ ?_ ⟨[], _, rfl, rfl, rfl⟩
          (by have := looks_addAccumulated M l; rw [g] at this; exact this)
        refine ⟨by simp [hs], ?_, by simp [hs], ?_, by simp [TPart.pieces, TPart.new], g5, ?_⟩
        · intro _
          exact ⟨init', p', ws', _, [], rfl, g1, rfl, by simp [TPart.new, g2], by simp [TPart.new, g3]⟩
        · intro _ _; simp [TPart.pieces, TPart.new]
        · intro q hq
          simp only [List.mem_singleton] at hq
          subst hq; exact TPart.new_ok M look ids
    | false =>
      obtain ⟨n', nx', h4a, h4b, h4c⟩ := ha4 n nx e3
      by_cases hfit : minWidth l.align l.parts + minWidth l.align (onLast (fun p => p.addWord M w) l.next) < l.maxWidth
      · have : l.addWord M w = ({ l with lastSpace := false, next := onLast (fun p => p.addWord M w) l.next }, .preadded) := by
          simp [TLine.addWord, hs, hw, hfit]
        rw [this]
        refine .preadded _ hw hs hs rfl ha1 ⟨rfl, rfl, rfl⟩ hfit ?_ ha2 (by simp only [hlkn]; exact fun x hx => hx)
        refine ⟨h.notStarted, ?_, ?_, by simp, hnb hw, h.okParts, ha3 h.okNext⟩
        · intro _
          exact ⟨init, p, ws, n', nx', e1, e2, h4a, by rw [h4b, e4], by rw [h4c, e5]⟩
        · intro hs'; simp only [hs] at hs'; cases hs'
      · obtain ⟨q1, q2, q3, q4⟩ := TPart.popWord_blank M p ws e2 (h.okParts p (by simp [e1]))
        have hpop : onLast (fun p => if p.words.getLast? = some c!" " then p.popWord M else p) l.parts = init ++ [p.popWord M] := by
          rw [e1, onLast_append, if_pos (by rw [e2]; simp)]
        have : l.addWord M w = ({ l with lastSpace := false, next := [], parts := init ++ [p.popWord M] },
            .finished { maxWidth := l.maxWidth, align := l.align, parts := [], topMargin := bottomLoop (init ++ [p.popWord M]) 0,
                        next := onLast (fun p => p.addWord M w) l.next, lastSpace := true, firstWord := true, started := false }) := by
          simp [TLine.addWord, hs, hw, hfit, hpop]
        rw [this]
        refine .finished _ _ hw hs ?_ rfl ⟨rfl, rfl, rfl⟩ ?_ ⟨_, _, rfl⟩ rfl rfl rfl rfl rfl ha1 ?_ ha2 ?_
        · refine ⟨(c!" ", p.look, p.ids), ?_, rfl⟩
          rw [e1]
          simp [TPart.pieces, e2, q1, q2, q3]
        · intro q hq
          simp only [List.mem_append, List.mem_singleton] at hq
          rcases hq with hq | rfl
          · exact h.okParts q (by simp [e1, hq])
          · exact q4
        · refine ⟨by simp, by simp, by simp, by simp, hnb hw, by simp, ha3 h.okNext⟩
        · simp only [hlkn, e1]
          intro x hx
          simp only [looks, List.map_append, List.map_cons, List.map_nil, q2] at hx ⊢
          exact hx

end Verif
