import Verif.Lemmas.TableMoved
/-! Tables and content boxes inside each other, run in moved rectangles. -/
namespace Verif

variable {Λ Q σ P B C : Type}

/-- rectangles of the same sizes -/
def SameSizes : List (Rat × Rat × Rat × Rat) → List (Rat × Rat × Rat × Rat) → Prop := List.Forall₂ fun r r' => r.2.2 = r'.2.2

section Box

/-- boxes that stand in different places and go on in the same way -/
def CContent.Alike (e : σ → σ) (s s' : CContent σ P B C) : Prop :=
  s'.cols = s.cols ∧ s'.gap = s.gap ∧ s'.elements = s.elements.map (CEl.mp e) ∧ s'.finished = s.finished ∧
    ((s.box = none ∧ s'.box = none) ∨ ∃ f dx dy, s.box = some f ∧ s'.box = some (f.mv e dx dy))

variable {exec exec' : σ → Rat → Rat → Rat → Rat → Except PyErr (CellOut σ P B C)} {e : σ → σ}

theorem boxRun_mv {m : P → P} {dx dy : Rat} (hE : Shifts exec exec' e m dx dy) (fuel : Nat) (s s' : CContent σ P B C) (hs : s.Alike e s') (x y w h : Rat) :
    (∃ k, s.run exec fuel x y w h = .error k ∧ s'.run exec' fuel (x + dx) (y + dy) w h = .error k) ∨
    ∃ s1 s1', s.run exec fuel x y w h = .ok s1 ∧ s'.run exec' fuel (x + dx) (y + dy) w h = .ok s1' ∧ s1.Alike e s1' ∧ s1'.out = s1.out.mv m dx dy ∧ s1'.currentHeight = s1.currentHeight := by
  obtain ⟨h1, h2, h3, h4, h5⟩ := hs
  unfold CContent.run
  rw [h1]
  by_cases hc : s.cols = 0
  · rw [if_pos hc, if_pos hc]; exact .inl ⟨_, rfl, rfl⟩
  · rw [if_neg hc, if_neg hc]
    have hf : (s'.box.getD (CBox.blank s.cols s'.gap s'.elements true)).setup (x + dx) w (y + dy) (y + dy - h) 0
        = ((s.box.getD (CBox.blank s.cols s.gap s.elements true)).setup x w y (y - h) 0).mv e dx dy := by
      rw [show y + dy - h = y - h + dy by ring]
      rcases h5 with ⟨ha, hb⟩ | ⟨f, dx', dy', ha, hb⟩
      · rw [ha, hb, h2, h3]; simp only [Option.getD]; rw [blank_mp, setup_mv]
      · rw [ha, hb]; simp only [Option.getD]; rw [setup_mv]
    dsimp only
    rw [hf]
    generalize (s.box.getD (CBox.blank s.cols s.gap s.elements true)).setup x w y (y - h) 0 = f
    have hr := (contentRun_mv hE fuel).1 [f] ⟨[], [], []⟩
    rw [show [f.mv e dx dy] = [f].map (CBox.mv e dx dy) from rfl, show (⟨[], [], []⟩ : COut P B C) = (⟨[], [], []⟩ : COut P B C).mv m dx dy from rfl, hr]
    rw [show (⟨[], [], []⟩ : COut P B C).mv m dx dy = (⟨[], [], []⟩ : COut P B C) from rfl]
    cases contentRun exec fuel [f] ⟨[], [], []⟩ with
    | error k => exact .inl ⟨_, rfl, rfl⟩
    | ok r =>
      obtain ⟨a, stk, o⟩ := r
      cases stk with
      | nil => exact .inl ⟨_, rfl, rfl⟩
      | cons g anc =>
        refine .inr ⟨_, _, rfl, rfl, ⟨rfl, h2, h3, ?_, .inr ⟨g, dx, dy, rfl, rfl⟩⟩, rfl, ?_⟩
        · simp only [h4]
        · dsimp only [List.map, stepMv]
          by_cases hg : g.cols > 1
          · rw [if_pos hg, if_pos (show (g.mv e dx dy).cols > 1 from hg)]; simp only [CBox.mv]; ring
          · rw [if_neg hg, if_neg (show ¬ (g.mv e dx dy).cols > 1 from hg)]; simp only [CBox.mv]; ring

theorem box_new_alike (e : σ → σ) (cols : Nat) (gap : Option Rat) (els : List (CEl σ)) : (CContent.new (P := P) (B := B) (C := C) cols gap els).Alike e (.new cols gap (els.map (CEl.mp e))) :=
  ⟨rfl, rfl, rfl, rfl, .inl ⟨rfl, rfl⟩⟩

theorem boxRuns_alike {m : Rat → Rat → P → P} (hE : ∀ dx dy, Shifts exec exec' e (m dx dy) dx dy) (fuel : Nat) {rs rs' : List (Rat × Rat × Rat × Rat)} (hr : SameSizes rs rs') :
    ∀ s s' : CContent σ P B C, s.Alike e s' → (∃ k, s.runs exec fuel rs = .error k ∧ s'.runs exec' fuel rs' = .error k) ∨
      ∃ ps s1 ps' s1', s.runs exec fuel rs = .ok (ps, s1) ∧ s'.runs exec' fuel rs' = .ok (ps', s1') ∧ s1.Alike e s1' := by
  induction hr with
  | nil => exact fun s s' hs => .inr ⟨_, _, _, _, rfl, rfl, hs⟩
  | @cons r r' rs rs' h1 _ ih =>
    intro s s' hs
    obtain ⟨x, y, w, h⟩ := r
    obtain ⟨x', y', w', h'⟩ := r'
    obtain ⟨rfl, rfl⟩ : w = w' ∧ h = h' := by simpa using h1
    have hb := boxRun_mv (hE (x' - x) (y' - y)) fuel s s' hs x y w h
    rw [show x + (x' - x) = x' by ring, show y + (y' - y) = y' by ring] at hb
    simp only [CContent.runs]
    rw [hs.2.2.2.1]
    by_cases hf : s.finished = true
    · rw [if_pos hf, if_pos hf]; exact .inr ⟨_, _, _, _, rfl, rfl, hs⟩
    · rw [if_neg hf, if_neg hf]
      rcases hb with ⟨k, e1, e2⟩ | ⟨s1, s1', e1, e2, ha, _, _⟩
      · rw [e1, e2]; exact .inl ⟨_, rfl, rfl⟩
      · rw [e1, e2]
        rcases ih s1 s1' ha with ⟨k, g1, g2⟩ | ⟨ps, s2, ps', s2', g1, g2, ha'⟩
        · simp only [g1, g2]; exact .inl ⟨_, rfl, rfl⟩
        · simp only [g1, g2]; exact .inr ⟨_, _, _, _, rfl, rfl, ha'⟩

theorem boxDrawings_mv {m : Rat → Rat → P → P} (hE : ∀ dx dy, Shifts exec exec' e (m dx dy) dx dy) (fuel : Nat) (l : Spec.Moves) :
    ∀ s s' : CContent σ P B C, s.Alike e s' →
      Spec.boxDrawings exec' fuel l.after s' = (Spec.boxDrawings exec fuel l.before s).map (l.move fun dx dy => CPart.mv (m dx dy) dx dy) := by
  induction l with
  | nil => exact fun s s' hs => rfl
  | cons r l ih =>
    intro s s' hs
    obtain ⟨⟨x, y, w, h⟩, dx, dy⟩ := r
    change Spec.boxDrawings exec' fuel ((x + dx, y + dy, w, h) :: Spec.Moves.after l) s' = (Spec.boxDrawings exec fuel ((x, y, w, h) :: Spec.Moves.before l) s).map _
    simp only [Spec.boxDrawings]
    rcases boxRun_mv (hE dx dy) fuel s s' hs x y w h with ⟨k, e1, e2⟩ | ⟨s1, s1', e1, e2, ha, ho, hh⟩
    · rw [e1, e2]; rfl
    · rw [e1, e2]
      simp only [ha.2.2.2.1]
      by_cases hf : s1.finished = true
      · rw [if_pos hf, if_pos hf, ho, hh]; simp [Except.map, Spec.Moves.move, Spec.RunLeft.mv, COut.mv]
      · rw [if_neg hf, if_neg hf, ih s1 s1' ha]
        cases Spec.boxDrawings exec fuel (Spec.Moves.before l) s1 with
        | error k => rfl
        | ok ds => simp only [Except.map]; rw [ho, hh]; rfl

end Box

section Table
variable [DecidableEq B]

theorem table_new_alike (e : σ → σ) : (TS.new (σ := σ) (P := P) (B := B) (C := C) 0 0 0 0).Alike e (TS.new 0 0 0 0) :=
  ⟨id, 0, 0, 0, 0, [], by simp [TS.new, TS.mv, TS.stale]⟩

/-- a run of tables that are alike -/
theorem tableRun_alike {T : TConf σ P B C} {ex : σ → Rat → Rat → Rat → Rat → Except PyErr (CellOut σ P B C)} {e : σ → σ} {m : P → P} {dx dy : Rat}
    (hE : Shifts T.exec ex e m dx dy) (s s' : TS σ P B C) (hs : s.Alike e s') (x y w h : Rat) :
    (∃ k, s.run T x y w h = .error k ∧ s'.run (T.mp e ex) (x + dx) (y + dy) w h = .error k) ∨
    ∃ s1 s1', s.run T x y w h = .ok s1 ∧ s'.run (T.mp e ex) (x + dx) (y + dy) w h = .ok s1' ∧ s1.Alike e s1' ∧ s1'.finished = s1.finished ∧
      s1'.parts = s1.parts.map m ∧ s1'.lines = s1.lines.map (BLine.mv dx dy) ∧ s1'.fills = s1.fills.map (TFill.mv dx dy) ∧ s1'.currentHeight = s1.currentHeight := by
  have hr := tableRun_mv hE s s' hs x y w h
  cases h0 : s.run T x y w h with
  | error k =>
    rw [h0] at hr
    rcases hr with hr | ⟨_, _, _, _, hr, _⟩
    · exact .inl ⟨k, rfl, hr⟩
    · exact absurd hr (by simp [Except.map])
  | ok s1 =>
    rw [h0] at hr
    rcases hr with hr | ⟨s2, a, b, t, hr, hr'⟩
    · exact .inr ⟨s1, _, rfl, hr, ⟨m, dx, dy, s1.xAbs + dx, s1.yAbs + dy, s1.topLines.map (BLine.mv dx dy), rfl⟩, rfl, rfl, rfl, rfl, rfl⟩
    · obtain rfl : s1.mv e m dx dy = s2 := by simpa [Except.map] using hr
      exact .inr ⟨s1, _, rfl, hr', ⟨m, dx, dy, a, b, t, rfl⟩, rfl, rfl, rfl, rfl, rfl⟩

theorem alike_finished {e : σ → σ} {s s' : TS σ P B C} (h : s.Alike e s') : s'.finished = s.finished := by
  obtain ⟨m, dx, dy, a, b, t, rfl⟩ := h; rfl

theorem tableRuns_alike {T : TConf σ P B C} {ex : σ → Rat → Rat → Rat → Rat → Except PyErr (CellOut σ P B C)} {e : σ → σ} {m : Rat → Rat → P → P}
    (hE : ∀ dx dy, Shifts T.exec ex e (m dx dy) dx dy) {rs rs' : List (Rat × Rat × Rat × Rat)} (hr : SameSizes rs rs') :
    ∀ s s' : TS σ P B C, s.Alike e s' → (∃ k, s.runs T rs = .error k ∧ s'.runs (T.mp e ex) rs' = .error k) ∨
      ∃ ps s1 ps' s1', s.runs T rs = .ok (ps, s1) ∧ s'.runs (T.mp e ex) rs' = .ok (ps', s1') ∧ s1.Alike e s1' := by
  induction hr with
  | nil => exact fun s s' hs => .inr ⟨_, _, _, _, rfl, rfl, hs⟩
  | @cons r r' rs rs' h1 _ ih =>
    intro s s' hs
    obtain ⟨x, y, w, h⟩ := r
    obtain ⟨x', y', w', h'⟩ := r'
    obtain ⟨rfl, rfl⟩ : w = w' ∧ h = h' := by simpa using h1
    have hb := tableRun_alike (hE (x' - x) (y' - y)) s s' hs x y w h
    rw [show x + (x' - x) = x' by ring, show y + (y' - y) = y' by ring] at hb
    simp only [TS.runs]
    rcases hb with ⟨k, e1, e2⟩ | ⟨s1, s1', e1, e2, ha, _⟩
    · rw [e1, e2]; exact .inl ⟨_, rfl, rfl⟩
    · rw [e1, e2]
      rcases ih s1 s1' ha with ⟨k, g1, g2⟩ | ⟨ps, s2, ps', s2', g1, g2, ha'⟩
      · simp only [g1, g2]; exact .inl ⟨_, rfl, rfl⟩
      · simp only [g1, g2]; exact .inr ⟨_, _, _, _, rfl, rfl, ha'⟩

theorem tableDrawings_mv {T : TConf σ P B C} {ex : σ → Rat → Rat → Rat → Rat → Except PyErr (CellOut σ P B C)} {e : σ → σ} {m : Rat → Rat → P → P}
    (hE : ∀ dx dy, Shifts T.exec ex e (m dx dy) dx dy) (l : Spec.Moves) :
    ∀ s s' : TS σ P B C, s.Alike e s' → Spec.tableDrawings (T.mp e ex) l.after s' = (Spec.tableDrawings T l.before s).map (l.move m) := by
  induction l with
  | nil => exact fun s s' hs => rfl
  | cons r l ih =>
    intro s s' hs
    obtain ⟨⟨x, y, w, h⟩, dx, dy⟩ := r
    change Spec.tableDrawings (T.mp e ex) ((x + dx, y + dy, w, h) :: Spec.Moves.after l) s' = (Spec.tableDrawings T ((x, y, w, h) :: Spec.Moves.before l) s).map _
    simp only [Spec.tableDrawings]
    rcases tableRun_alike (hE dx dy) s s' hs x y w h with ⟨k, e1, e2⟩ | ⟨s1, s1', e1, e2, ha, hf', hp, hl, hfl, hh⟩
    · rw [e1, e2]; rfl
    · rw [e1, e2]
      simp only [hf']
      by_cases hf : s1.finished = true
      · rw [if_pos hf, if_pos hf, hp, hl, hfl, hh]; simp [Except.map, Spec.Moves.move, Spec.RunLeft.mv]
      · rw [if_neg hf, if_neg hf, ih s1 s1' ha]
        cases Spec.tableDrawings T (Spec.Moves.before l) s1 with
        | error k => rfl
        | ok ds => simp only [Except.map]; rw [hp, hl, hfl, hh]; rfl

end Table

section Nest
variable [DecidableEq B]

def TabData.mp (e : σ → σ) (D : TabData σ B C) : TabData σ B C :=
  { D with content := D.content.map (List.map (Option.map (Cell.mp e))), blank := e D.blank }

/-- rectangles without their places -/
def unplaced (rs : List (Rat × Rat × Rat × Rat)) : List (Rat × Rat × Rat × Rat) := rs.map fun r => (0, 0, r.2.2)

omit [DecidableEq B] in
theorem unplaced_same (rs : List (Rat × Rat × Rat × Rat)) : SameSizes rs (unplaced rs) := by
  induction rs with
  | nil => exact .nil
  | cons r rs ih => exact .cons rfl ih

theorem mv_same_refl (rs : List (Rat × Rat × Rat × Rat)) : SameSizes rs rs := by
  induction rs with
  | nil => exact .nil
  | cons r rs ih => exact .cons rfl ih

/-- a thing that does not remember places -/
def Node.forget (e : σ → σ) : Node Λ σ B C → Node Λ σ B C
  | .leaf t l => .leaf t l
  | .table D rs => .table (D.mp e) (unplaced rs)
  | .box gap els rs => .box gap (els.map (CEl.mp e)) (unplaced rs)

def Nest.forget : (n : Nat) → Nest Λ B C n → Nest Λ B C n
  | 0 => id
  | n + 1 => Node.forget (Nest.forget n)

/-- what is run without remembering places -/
def forgetExec (exec : σ → Rat → Rat → Rat → Rat → Except PyErr (CellOut σ P B C)) (e : σ → σ) (c : σ) (x y w h : Rat) : Except PyErr (CellOut σ P B C) :=
  (exec c x y w h).map fun o => { o with next := e o.next }

mutual
theorem CEl.mp_mp {e : σ → σ} (he : ∀ c, e (e c) = e c) : ∀ a : CEl σ, (a.mp e).mp e = a.mp e
  | .leaf c st => by simp [CEl.mp, he]
  | .image i => rfl
  | .group l t st => by
    simp only [CEl.mp, List.map_map]
    congr 2
    funext g
    cases g <;> simp [GEl.mp, he]
  | .child cols gap els st => by simp only [CEl.mp]; rw [CEl.mps_mps he els]

theorem CEl.mps_mps {e : σ → σ} (he : ∀ c, e (e c) = e c) : ∀ l : List (CEl σ), CEl.mps e (CEl.mps e l) = CEl.mps e l
  | [] => rfl
  | a :: l => by simp only [CEl.mps]; rw [CEl.mp_mp he a, CEl.mps_mps he l]
end

omit [DecidableEq B] in
theorem TabData.mp_mp {e : σ → σ} (he : ∀ c, e (e c) = e c) (D : TabData σ B C) : (D.mp e).mp e = D.mp e := by
  have h : ∀ c : Cell σ C, (c.mp e).mp e = c.mp e := by
    intro c; simp [Cell.mp, Option.map_map, Function.comp_def, he]
  simp [TabData.mp, List.map_map, Option.map_map, Function.comp_def, he, h]

omit [DecidableEq B] in
theorem Node.forget_forget {e : σ → σ} (he : ∀ c, e (e c) = e c) (c : Node Λ σ B C) : (c.forget e).forget e = c.forget e := by
  cases c with
  | leaf t l => rfl
  | table D rs => simp [Node.forget, TabData.mp_mp he, unplaced]
  | box gap els rs => simp [Node.forget, unplaced, List.map_map, Function.comp_def, CEl.mp_mp he]

omit [DecidableEq B] in
theorem Nest.forget_forget (n : Nat) : ∀ c : Nest Λ B C n, Nest.forget n (Nest.forget n c) = Nest.forget n c := by
  induction n with
  | zero => exact fun _ => rfl
  | succ n ih => exact Node.forget_forget ih

/-- a run of an inner table: whether it was run at all, and what it left -/
def tableCore (exec : σ → Rat → Rat → Rat → Rat → Except PyErr (CellOut σ (TagPart Q) B C)) (D : TabData σ B C) (rects : List (Rat × Rat × Rat × Rat)) (x y w h : Rat) :
    Except PyErr (Bool × Spec.RunLeft (TagPart Q) B C) :=
  match (TS.new 0 0 0 0).runs (D.conf exec) rects with
  | .error e => .error e
  | .ok (_, s) =>
    if s.finished then .ok (false, ⟨[], [], [], 0, true⟩)
    else match s.run (D.conf exec) x y w h with
      | .error e => .error e
      | .ok s => .ok (true, ⟨s.parts, s.lines, s.fills, s.currentHeight, s.finished⟩)

def boxCore (fuel : Nat) (exec : σ → Rat → Rat → Rat → Rat → Except PyErr (CellOut σ (TagPart Q) B C)) (gap : Option Rat) (els : List (CEl σ))
    (rects : List (Rat × Rat × Rat × Rat)) (x y w h : Rat) : Except PyErr (Bool × Spec.RunLeft (TagPart Q) B C) :=
  match ((CContent.new 1 gap els).runs exec fuel rects).flat with
  | .error e => .error e
  | .ok (_, s) =>
    if s.finished then .ok (false, ⟨[], [], [], 0, true⟩)
    else match (s.run exec fuel x y w h).flat with
      | .error e => .error e
      | .ok s => .ok (true, ⟨s.out.parts.map CPart.join, s.out.lines, s.out.fills, s.currentHeight, s.finished⟩)

/-- what the code makes of it: `next` is the thing with the rectangles it was run in -/
def coreOut (mk : List (Rat × Rat × Rat × Rat) → σ) (rects : List (Rat × Rat × Rat × Rat)) (r : Rat × Rat × Rat × Rat) (o : Bool × Spec.RunLeft P B C) : CellOut σ P B C :=
  ⟨o.2.parts, o.2.lines, o.2.fills, o.2.height, o.2.finished, mk (if o.1 then rects ++ [r] else rects)⟩

theorem tableExec_core (exec : σ → Rat → Rat → Rat → Rat → Except PyErr (CellOut σ (TagPart Q) B C)) (D : TabData σ B C) (rects : List (Rat × Rat × Rat × Rat)) (x y w h : Rat) :
    tableExec (Λ := Λ) exec D rects x y w h = (tableCore exec D rects x y w h).map (coreOut (.table D) rects (x, y, w, h)) := by
  unfold tableExec tableCore
  cases (TS.new 0 0 0 0).runs (D.conf exec) rects with
  | error k => rfl
  | ok r =>
    obtain ⟨ps, s⟩ := r
    dsimp only
    by_cases hf : s.finished = true
    · rw [if_pos hf, if_pos hf]; rfl
    · rw [if_neg hf, if_neg hf]
      cases s.run (D.conf exec) x y w h <;> rfl

omit [DecidableEq B] in
theorem boxExec_core (fuel : Nat) (exec : σ → Rat → Rat → Rat → Rat → Except PyErr (CellOut σ (TagPart Q) B C)) (gap : Option Rat) (els : List (CEl σ)) (rects : List (Rat × Rat × Rat × Rat))
    (x y w h : Rat) : boxExec (Λ := Λ) fuel exec gap els rects x y w h = (boxCore fuel exec gap els rects x y w h).map (coreOut (.box gap els) rects (x, y, w, h)) := by
  unfold boxExec boxCore
  cases ((CContent.new 1 gap els).runs exec fuel rects).flat with
  | error k => rfl
  | ok r =>
    obtain ⟨ps, s⟩ := r
    dsimp only
    by_cases hf : s.finished = true
    · rw [if_pos hf, if_pos hf]; rfl
    · rw [if_neg hf, if_neg hf]
      cases (s.run exec fuel x y w h).flat <;> rfl

variable {exec exec' : σ → Rat → Rat → Rat → Rat → Except PyErr (CellOut σ (TagPart Q) B C)} {e : σ → σ} {m : Rat → Rat → Q → Q}

theorem tableCore_mv (hE : ∀ dx dy, Shifts exec exec' e (TagPart.mv m dx dy) dx dy) (D : TabData σ B C) {rs rs' : List (Rat × Rat × Rat × Rat)} (hr : SameSizes rs rs') (x y w h dx dy : Rat) :
    tableCore exec' (D.mp e) rs' (x + dx) (y + dy) w h = (tableCore exec D rs x y w h).map fun o => (o.1, o.2.mv (TagPart.mv m) dx dy) := by
  unfold tableCore
  have h1 := tableRuns_alike (T := D.conf exec) hE hr _ _ (table_new_alike e)
  rw [show TConf.mp e exec' (D.conf exec) = (D.mp e).conf exec' from rfl] at h1
  rcases h1 with ⟨k, e1, e2⟩ | ⟨ps, s, ps', s', e1, e2, ha⟩
  · rw [e1, e2]; rfl
  · rw [e1, e2]
    dsimp only
    rw [alike_finished ha]
    by_cases hf : s.finished = true
    · rw [if_pos hf, if_pos hf]; rfl
    · rw [if_neg hf, if_neg hf]
      have h2 := tableRun_alike (T := D.conf exec) (hE dx dy) s s' ha x y w h
      rw [show TConf.mp e exec' (D.conf exec) = (D.mp e).conf exec' from rfl] at h2
      rcases h2 with ⟨k, g1, g2⟩ | ⟨s1, s1', g1, g2, _, hf', hp, hl, hfl, hh⟩
      · rw [g1, g2]; rfl
      · rw [g1, g2]
        simp only [Except.map]
        rw [hp, hl, hfl, hh, hf']; rfl

omit [DecidableEq B] in
theorem boxCore_mv (hE : ∀ dx dy, Shifts exec exec' e (TagPart.mv m dx dy) dx dy) (fuel : Nat) (gap : Option Rat) (els : List (CEl σ)) {rs rs' : List (Rat × Rat × Rat × Rat)} (hr : SameSizes rs rs')
    (x y w h dx dy : Rat) : boxCore fuel exec' gap (els.map (CEl.mp e)) rs' (x + dx) (y + dy) w h = (boxCore fuel exec gap els rs x y w h).map fun o => (o.1, o.2.mv (TagPart.mv m) dx dy) := by
  unfold boxCore
  rcases boxRuns_alike hE fuel hr _ _ (box_new_alike e 1 gap els) with ⟨k, e1, e2⟩ | ⟨ps, s, ps', s', e1, e2, ha⟩
  · rw [e1, e2]; cases k <;> rfl
  · rw [e1, e2]
    simp only [CRun.flat]
    rw [ha.2.2.2.1]
    by_cases hf : s.finished = true
    · rw [if_pos hf, if_pos hf]; rfl
    · rw [if_neg hf, if_neg hf]
      rcases boxRun_mv (hE dx dy) fuel s s' ha x y w h with ⟨k, g1, g2⟩ | ⟨s1, s1', g1, g2, ha', ho, hh⟩
      · rw [g1, g2]; cases k <;> rfl
      · rw [g1, g2]
        simp only [Except.map]
        rw [ho, hh, ha'.2.2.2.1]
        have hj : ∀ p : CPart (TagPart Q), CPart.join (CPart.mv (TagPart.mv m dx dy) dx dy p) = TagPart.mv m dx dy p.join := by
          intro p; cases p <;> rfl
        simp [COut.mv, Spec.RunLeft.mv, List.map_map, Function.comp_def, hj]

omit [DecidableEq B] in
theorem left_mv_zero (hm : ∀ q, m 0 0 q = q) (d : Spec.RunLeft (TagPart Q) B C) : d.mv (TagPart.mv m) 0 0 = d := by
  have h1 : ∀ p : TagPart Q, TagPart.mv m 0 0 p = p := by intro p; cases p <;> simp [TagPart.mv, CPart.mv, hm]
  have h2 : ∀ f : TFill C, f.mv 0 0 = f := by intro f; simp [TFill.mv]
  obtain ⟨ps, ls, fs, h, b⟩ := d
  simp only [Spec.RunLeft.mv]
  congr 1
  · exact (List.map_congr_left fun p _ => h1 p).trans (List.map_id _)
  · exact (List.map_congr_left fun p _ => line_mv_zero p).trans (List.map_id _)
  · exact (List.map_congr_left fun p _ => h2 p).trans (List.map_id _)

/-- an inner table that has forgotten its places -/
theorem tableCore_forget (hm : ∀ q, m 0 0 q = q) (he : ∀ c, e (e c) = e c) (hE : ∀ dx dy, Shifts exec exec' e (TagPart.mv m dx dy) dx dy) (D : TabData σ B C)
    (rs : List (Rat × Rat × Rat × Rat)) (x y w h dx dy : Rat) :
    tableCore exec (D.mp e) (unplaced rs) (x + dx) (y + dy) w h = (tableCore exec D rs x y w h).map fun o => (o.1, o.2.mv (TagPart.mv m) dx dy) := by
  have h1 := tableCore_mv hE D (unplaced_same rs) x y w h dx dy
  have h2 := tableCore_mv hE (D.mp e) (mv_same_refl (unplaced rs)) (x + dx) (y + dy) w h 0 0
  rw [TabData.mp_mp he, add_zero, add_zero, h1] at h2
  rw [h2]
  cases tableCore exec (D.mp e) (unplaced rs) (x + dx) (y + dy) w h with
  | error k => rfl
  | ok o => simp [Except.map, left_mv_zero hm]

omit [DecidableEq B] in
theorem boxCore_forget (hm : ∀ q, m 0 0 q = q) (he : ∀ c, e (e c) = e c) (hE : ∀ dx dy, Shifts exec exec' e (TagPart.mv m dx dy) dx dy) (fuel : Nat) (gap : Option Rat) (els : List (CEl σ))
    (rs : List (Rat × Rat × Rat × Rat)) (x y w h dx dy : Rat) :
    boxCore fuel exec gap (els.map (CEl.mp e)) (unplaced rs) (x + dx) (y + dy) w h = (boxCore fuel exec gap els rs x y w h).map fun o => (o.1, o.2.mv (TagPart.mv m) dx dy) := by
  have h1 := boxCore_mv hE fuel gap els (unplaced_same rs) x y w h dx dy
  have h2 := boxCore_mv hE fuel gap (els.map (CEl.mp e)) (mv_same_refl (unplaced rs)) (x + dx) (y + dy) w h 0 0
  have hee : (els.map (CEl.mp e)).map (CEl.mp e) = els.map (CEl.mp e) := by simp [List.map_map, Function.comp_def, CEl.mp_mp he]
  rw [hee, add_zero, add_zero, h1] at h2
  rw [h2]
  cases boxCore fuel exec gap (els.map (CEl.mp e)) (unplaced rs) (x + dx) (y + dy) w h with
  | error k => rfl
  | ok o => simp [Except.map, left_mv_zero hm]

/-- everything that can be in a table or a box -/
theorem nest_shifts {leaf : Λ → Rat → Rat → Rat → Rat → Except PyErr (CellOut Λ Q B C)} (hm : ∀ q, m 0 0 q = q) (hL : ∀ dx dy, Shifts leaf leaf id (m dx dy) dx dy) (fuel n : Nat) :
    ∀ dx dy, Shifts (nestExec leaf fuel n) (forgetExec (nestExec leaf fuel n) (Nest.forget n)) (Nest.forget n) (TagPart.mv m dx dy) dx dy := by
  induction n with
  | zero => intro dx dy c; exact c.elim
  | succ n ih =>
    intro dx dy c x y w h
    have hun : ∀ (b : Bool) (rs : List (Rat × Rat × Rat × Rat)) (x y x' y' : Rat), unplaced (if b then unplaced rs ++ [(x, y, w, h)] else unplaced rs) = unplaced (if b then rs ++ [(x', y', w, h)] else rs) := by
      intro b rs x y x' y'; cases b <;> simp [unplaced]
    match c with
    | .leaf t l =>
      change ((tagExec leaf t l (x + dx) (y + dy) w h).map fun o => { o with next := Nest.forget (n + 1) o.next }) = (tagExec leaf t l x y w h).map _
      have h0 := hL dx dy l x y w h
      simp only [id] at h0
      unfold tagExec
      rw [h0]
      cases leaf l x y w h with
      | error k => rfl
      | ok o => simp [Except.map, CellOut.mv, Nest.forget, Node.forget, TagPart.mv, CPart.mv, List.map_map, Function.comp_def]
    | .table D rs =>
      change ((tableExec (nestExec leaf fuel n) (D.mp (Nest.forget n)) (unplaced rs) (x + dx) (y + dy) w h).map fun o => { o with next := Nest.forget (n + 1) o.next }) =
        (tableExec (nestExec leaf fuel n) D rs x y w h).map _
      rw [tableExec_core, tableExec_core, tableCore_forget hm (Nest.forget_forget n) ih]
      cases tableCore (nestExec leaf fuel n) D rs x y w h with
      | error k => rfl
      | ok o => simp [Except.map, CellOut.mv, coreOut, Spec.RunLeft.mv, Nest.forget, Node.forget, TabData.mp_mp (Nest.forget_forget n), hun o.1 rs (x + dx) (y + dy) x y]
    | .box gap els rs =>
      change ((boxExec fuel (nestExec leaf fuel n) gap (els.map (CEl.mp (Nest.forget n))) (unplaced rs) (x + dx) (y + dy) w h).map fun o => { o with next := Nest.forget (n + 1) o.next }) =
        (boxExec fuel (nestExec leaf fuel n) gap els rs x y w h).map _
      rw [boxExec_core, boxExec_core, boxCore_forget hm (Nest.forget_forget n) ih]
      have hee : (els.map (CEl.mp (Nest.forget n))).map (CEl.mp (Nest.forget n)) = els.map (CEl.mp (Nest.forget n)) := by
        simp only [List.map_map, Function.comp_def, CEl.mp_mp (Nest.forget_forget n)]
      cases boxCore fuel (nestExec leaf fuel n) gap els rs x y w h with
      | error k => rfl
      | ok o =>
        simp only [Except.map, CellOut.mv, coreOut, Spec.RunLeft.mv, Nest.forget, Node.forget, hee]
        rw [hun o.1 rs (x + dx) (y + dy) x y]

end Nest

end Verif
