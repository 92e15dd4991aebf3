import Verif.Props.C19_Page
/-! C19: the defaults of pages. -/
namespace Verif

/-- calls of `setup_page`, one after the other -/
def setupCalls (pf : Str → Option Rat) : List PageArgs → PageSetup → Except PyErr PageSetup
  | [], s => .ok s
  | a :: l, s => match s.setup pf a with
    | .error e => .error e
    | .ok s => setupCalls pf l s

/-- the last of the values that were given -/
def lastGiven {α β : Type} (f : α → Option β) (l : List α) : Option β := (l.filterMap f).getLast?

theorem lastGiven_cons {α β : Type} (f : α → Option β) (a : α) (l : List α) : lastGiven f (a :: l) = (lastGiven f l).or (f a) := by
  unfold lastGiven
  cases h : f a with
  | none => rw [List.filterMap_cons_none h]; simp
  | some b =>
    rw [List.filterMap_cons_some h, List.getLast?_cons]
    cases (List.filterMap f l).getLast? <;> rfl

/-- one call -/
theorem setup_given {pf : Str → Option Rat} {s s' : PageSetup} {a : PageArgs} (h : s.setup pf a = .ok s') :
    (a.size = none → s'.width = s.width ∧ s'.height = s.height) ∧ (∀ z, a.size = some z → SizeMeans z s'.width s'.height) ∧ s'.rotate = a.rotate.getD s.rotate ∧
      (a.margin = none → s'.margin = s.margin) ∧ ∀ m, a.margin = some m → parseMargin pf m = .ok s'.margin := by
  unfold PageSetup.setup at h
  cases h1 : sizeArg s.width s.height a.size with
  | error e => rw [h1] at h; cases h
  | ok wh =>
    rw [h1] at h
    have hsize : (a.size = none → wh.1 = s.width ∧ wh.2 = s.height) ∧ ∀ z, a.size = some z → SizeMeans z wh.1 wh.2 := by
      refine ⟨fun hn => ?_, fun z hz => ?_⟩
      · rw [hn] at h1; cases h1; exact ⟨rfl, rfl⟩
      · rw [hz] at h1; exact sizePair_means h1
    simp only at h
    cases h2 : a.margin with
    | none =>
      rw [h2] at h
      cases h
      exact ⟨hsize.1, hsize.2, rfl, fun _ => rfl, fun m hm => by cases hm⟩
    | some m =>
      rw [h2] at h
      simp only at h
      cases h3 : parseMargin pf m with
      | error e => rw [h3] at h; cases h
      | ok d =>
        rw [h3] at h
        cases h
        exact ⟨hsize.1, hsize.2, rfl, fun hm => (by cases hm), fun m' hm => (by cases hm; exact h3)⟩

/-- **C19**, defaults: after any calls of `setup_page` each of size, rotation and margins is the one that was given last; what was never given is as at the start, whatever else
was given -/
theorem C19_defaults (pf : Str → Option Rat) (calls : List PageArgs) (s s' : PageSetup) (h : setupCalls pf calls s = .ok s') :
    (match lastGiven (·.size) calls with
      | none => s'.width = s.width ∧ s'.height = s.height
      | some z => SizeMeans z s'.width s'.height) ∧
    s'.rotate = (lastGiven (·.rotate) calls).getD s.rotate ∧
    (match lastGiven (·.margin) calls with
      | none => s'.margin = s.margin
      | some m => parseMargin pf m = .ok s'.margin) := by
  induction calls generalizing s with
  | nil => cases h; exact ⟨⟨rfl, rfl⟩, rfl, rfl⟩
  | cons a l ih =>
    unfold setupCalls at h
    cases h1 : s.setup pf a with
    | error e => rw [h1] at h; cases h
    | ok s1 =>
      rw [h1] at h
      obtain ⟨i1, i2, i3⟩ := ih s1 h
      obtain ⟨g1, g2, g3, g4, g5⟩ := setup_given h1
      rw [lastGiven_cons, lastGiven_cons, lastGiven_cons]
      refine ⟨?_, ?_, ?_⟩
      · cases hl : lastGiven (·.size) l with
        | some z => rw [hl] at i1; exact i1
        | none =>
          rw [hl] at i1
          simp only [Option.none_or]
          cases hz : a.size with
          | none => exact ⟨i1.1.trans (g1 hz).1, i1.2.trans (g1 hz).2⟩
          | some z => simp only; rw [i1.1, i1.2]; exact g2 z hz
      · rw [i2, g3]
        cases lastGiven (·.rotate) l <;> rfl
      · cases hl : lastGiven (·.margin) l with
        | some z => rw [hl] at i3; exact i3
        | none =>
          rw [hl] at i3
          simp only [Option.none_or]
          cases hz : a.margin with
          | none => exact i3.trans (g4 hz)
          | some m => simp only; rw [i3]; exact g5 m hz

/-- a call with a valid size and margins succeeds -/
theorem C19_defaults_set (pf : Str → Option Rat) (s : PageSetup) (a : PageArgs) (hs : ∀ z ∈ a.size, ∃ w h, SizeMeans z w h) (hm : ∀ m ∈ a.margin, ∃ d, parseMargin pf m = .ok d) :
    ∃ s', s.setup pf a = .ok s' := by
  have h1 : ∃ wh, sizeArg s.width s.height a.size = .ok wh := by
    cases hz : a.size with
    | none => exact ⟨_, rfl⟩
    | some z =>
      obtain ⟨w, h, hm⟩ := hs z hz
      refine ⟨(w, h), ?_⟩
      cases hm with
      | square => rfl
      | pair => rfl
      | named hf => simp [sizeArg, sizePair, getPageSize, hf]
  obtain ⟨wh, h1⟩ := h1
  cases h2 : a.margin with
  | none => simp only [PageSetup.setup, h1, h2]; exact ⟨_, rfl⟩
  | some m =>
    obtain ⟨d, hd⟩ := hm m h2
    simp only [PageSetup.setup, h1, h2, hd]
    exact ⟨_, rfl⟩

/-- a size, then a rotation, then margins -/
example (s' : PageSetup) (h : setupCalls (fun _ => none) [⟨some (.str c!"a5"), none, none⟩, ⟨none, some true, none⟩, ⟨none, none, some (.num 7)⟩] ⟨100, 200, false, []⟩ = .ok s') :
    SizeMeans (.str c!"a5") s'.width s'.height ∧ s'.rotate = true ∧ parseMargin (fun _ => none) (.num 7) = .ok s'.margin :=
  C19_defaults (fun _ => none) _ ⟨100, 200, false, []⟩ s' h

example : ((setupCalls (fun _ => none) [⟨some (.str c!"a5"), none, none⟩, ⟨none, some true, none⟩, ⟨none, none, some (.num 7)⟩] ⟨100, 200, false, []⟩).toOption.map fun s =>
    (s.width, s.height, s.rotate)) = some (milli 419528, milli 595276, true) := by decide +kernel

end Verif
