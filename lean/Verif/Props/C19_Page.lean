import Verif.Model.Page
import Mathlib.Tactic.Ring
import Mathlib.Tactic.Linarith
import Mathlib.Tactic.NormNum
import Mathlib.Algebra.Order.Field.Rat
/-! C19: page geometry. -/
namespace Verif

/-- the size a `page_size` argument stands for: a square, a pair, or a named paper size -/
inductive SizeMeans : SizeIn Rat → Rat → Rat → Prop
  | square (n : Rat) : SizeMeans (.num n) n n
  | pair (w h : Rat) : SizeMeans (.seq [w, h]) w h
  | named {name : Str} {w h : Nat} : pageSizes.find? (fun p => p.1 = name) = some (name, (w, h)) →
      SizeMeans (.str name) (milli w) (milli h)

/-- the side of a page: the last value the override gives for it, else the default, else 0 -/
def sideOf (name : Str) (default override : List (Str × Rat)) : Rat :=
  ((dget name override.reverse).or (dget name default)).getD 0

/-- the running sections draw and move the cursor, but leave the sheet alone -/
def KeepsSheet (rs : Page → Except PyErr Page) : Prop :=
  ∀ q q', rs q = .ok q' → q'.width = q.width ∧ q'.height = q.height ∧ q'.marginTop = q.marginTop ∧
    q'.marginBottom = q.marginBottom ∧ q'.marginLeft = q.marginLeft ∧ q'.marginRight = q.marginRight

theorem sizePair_means {s : SizeIn Rat} {w h : Rat} (hs : sizePair milli s = .ok (w, h)) :
    SizeMeans s w h := by
  unfold sizePair getPageSize at hs
  cases s with
  | num n => cases hs; exact .square _
  | str name =>
    simp only at hs
    cases hf : pageSizes.find? (fun p => p.1 = name) with
    | none => rw [hf] at hs; cases hs
    | some p =>
      rw [hf] at hs
      cases hs
      obtain ⟨n, w, h⟩ := p
      have := List.find?_some hf
      simp only [decide_eq_true_eq] at this
      subst this
      exact .named hf
  | seq l =>
    match l with
    | [_, _] => cases hs; exact .pair _ _
    | [] => cases hs
    | [_] => cases hs
    | _ :: _ :: _ :: _ => cases hs
  | other => cases hs

/-- the paper sizes of the standards: ISO 216 and JIS P 0138 in millimetres, the American ones in inches;
the number of points is that of a length in the unit (an inch has 25.4 millimetres or 72 points) -/
inductive Unit3
  | mm | inch

def Unit3.points : Unit3 → Rat → Rat
  | .mm, x => x * 72 / (254 / 10)
  | .inch, x => x * 72

def papers : List (Str × Unit3 × Rat × Rat) :=
  [(c!"a5", .mm, 148, 210), (c!"a4", .mm, 210, 297), (c!"a3", .mm, 297, 420), (c!"b5", .mm, 176, 250), (c!"b4", .mm, 250, 353),
   (c!"jis-b5", .mm, 182, 257), (c!"jis-b4", .mm, 257, 364), (c!"letter", .inch, 17/2, 11), (c!"legal", .inch, 17/2, 14),
   (c!"ledger", .inch, 11, 17)]

/-- C19: the named sizes are those of the standards, upright, to a thousandth of a point; other names are refused. -/
theorem C19_paper (name : Str) :
    (∀ u x y, (name, u, x, y) ∈ papers → ∃ w h, SizeMeans (.str name) w h ∧
      |w - u.points x| ≤ 1 / 1000 ∧ |h - u.points y| ≤ 1 / 1000) ∧
    (name ∉ papers.map Prod.fst → sizePair milli (.str name) = .error .keyError) := by
  constructor
  · intro u x y h
    simp only [papers, List.mem_cons, List.not_mem_nil, or_false, Prod.mk.injEq] at h
    rcases h with ⟨rfl, rfl, rfl, rfl⟩ | ⟨rfl, rfl, rfl, rfl⟩ | ⟨rfl, rfl, rfl, rfl⟩ | ⟨rfl, rfl, rfl, rfl⟩ | ⟨rfl, rfl, rfl, rfl⟩ |
      ⟨rfl, rfl, rfl, rfl⟩ | ⟨rfl, rfl, rfl, rfl⟩ | ⟨rfl, rfl, rfl, rfl⟩ | ⟨rfl, rfl, rfl, rfl⟩ | ⟨rfl, rfl, rfl, rfl⟩ <;>
    exact ⟨_, _, .named rfl, by rw [abs_le]; constructor <;> norm_num [milli, Unit3.points],
      by rw [abs_le]; constructor <;> norm_num [milli, Unit3.points]⟩
  · intro h
    have hf : pageSizes.find? (fun p => p.1 = name) = none := by
      rw [List.find?_eq_none]
      intro q hq e
      simp only [decide_eq_true_eq] at e
      subst e
      apply h
      have : pageSizes.map Prod.fst = papers.map Prod.fst := by decide
      rw [← this]
      exact List.mem_map_of_mem hq
    simp only [sizePair, getPageSize, hf]

/-- C19: a page added with any combination of defaults and overrides has the size asked for, with the
sides exchanged exactly when rotation is asked for; its margins are the overrides over the defaults;
its content box is the page minus the margins; and the cursor is at the top-left corner of that box,
whatever the running sections did. -/
theorem C19_page_geometry (pf : Str → Option Rat) (s : PageSetup) (id : Nat) (a : PageArgs)
    (rs : Page → Except PyErr Page) (hrs : KeepsSheet rs) (p : Page)
    (h : s.addPage pf id a rs = .ok p) :
    ∃ w h, (match a.size with
        | none => w = s.width ∧ h = s.height
        | some z => SizeMeans z w h) ∧
      (a.rotate.getD s.rotate = false → p.width = w ∧ p.height = h) ∧
      (a.rotate.getD s.rotate = true → p.width = h ∧ p.height = w) ∧
      (∃ over, (match a.margin with
          | none => over = []
          | some m => parseMargin pf m = .ok over) ∧
        p.marginTop = sideOf c!"top" s.margin over ∧ p.marginBottom = sideOf c!"bottom" s.margin over ∧
        p.marginLeft = sideOf c!"left" s.margin over ∧ p.marginRight = sideOf c!"right" s.margin over) ∧
      p.contentWidth = p.width - (p.marginLeft + p.marginRight) ∧
      p.contentHeight = p.height - (p.marginTop + p.marginBottom) ∧
      p.x = p.marginLeft ∧ p.y = p.marginTop ∧ p.yUp = p.height - p.marginTop := by
  unfold PageSetup.addPage at h
  split at h
  · cases h
  · rename_i w hh hsz
    refine ⟨w, hh, ?_, ?_⟩
    · cases hs : a.size with
      | none =>
        rw [hs] at hsz
        simp only [sizeArg, Except.ok.injEq, Prod.mk.injEq] at hsz
        exact ⟨hsz.1.symm, hsz.2.symm⟩
      | some z =>
        rw [hs] at hsz
        exact sizePair_means hsz
    · simp only at h
      split at h
      · cases h
      · rename_i d hd
        split at h
        · cases h
        · rename_i q hq
          split at h
          · cases h
          · rename_i q' hq'
            cases h
            obtain ⟨e1, e2, e3, e4, e5, e6⟩ := hrs q q' hq'
            unfold Page.ofMargins at hq
            split at hq
            · cases hq
              simp only [Page.new, Page.goToBeginning] at e1 e2 e3 e4 e5 e6
              simp only [Page.goToBeginning, Page.y, e1, e2, e3, e4, e5, e6]
              refine ⟨?_, ?_, ?_, by ring, by ring, trivial, by ring, trivial⟩
              · intro hr
                have : ¬ ((a.rotate = none ∧ s.rotate = true) ∨ a.rotate = some true) := by
                  rintro (⟨h1, h2⟩ | h1)
                  · rw [h1] at hr; simp [h2] at hr
                  · rw [h1] at hr; simp at hr
                rw [if_neg this]
                exact ⟨rfl, rfl⟩
              · intro hr
                have : (a.rotate = none ∧ s.rotate = true) ∨ a.rotate = some true := by
                  cases har : a.rotate with
                  | none => left; rw [har] at hr; exact ⟨rfl, hr⟩
                  | some b => right; rw [har] at hr; simp at hr; rw [hr]
                rw [if_pos this]
                exact ⟨rfl, rfl⟩
              · unfold marginArg at hd
                cases hm : a.margin with
                | none =>
                  rw [hm] at hd
                  cases hd
                  exact ⟨[], rfl, by simp [sideOf, dget], by simp [sideOf, dget], by simp [sideOf, dget],
                    by simp [sideOf, dget]⟩
                | some m =>
                  rw [hm] at hd
                  simp only at hd
                  cases hp : parseMargin pf m with
                  | error e => rw [hp] at hd; cases hd
                  | ok over =>
                    rw [hp] at hd
                    cases hd
                    exact ⟨over, hp, by rw [dget_dupdate]; rfl, by rw [dget_dupdate]; rfl,
                      by rw [dget_dupdate]; rfl, by rw [dget_dupdate]; rfl⟩
            · cases hq

/-- C19: whatever the page went through, `y` and `_y` add up to the page height, and setting one of them
is seen by the other. -/
theorem C19_y_duality (p : Page) (v : Rat) :
    p.y + p.yUp = p.height ∧ (p.setY v).y = v ∧ (p.setY v).yUp = p.height - v ∧
      ({ p with yUp := v }).y = p.height - v := by
  simp only [Page.y, Page.setY]
  exact ⟨by ring, by ring, trivial, trivial⟩

/-- C19: with a valid size and margins the page is created. -/
theorem C19_page_created (pf : Str → Option Rat) (s : PageSetup) (id : Nat) (a : PageArgs)
    (hs : ∀ z ∈ a.size, ∃ w h, SizeMeans z w h)
    (hd : ∀ q ∈ s.margin, q.1 ∈ sideNames)
    (hm : ∀ m ∈ a.margin, ∃ d, parseMargin pf m = .ok d ∧ ∀ q ∈ d, q.1 ∈ sideNames) :
    ∃ p, s.addPage pf id a .ok = .ok p := by
  have h1 : ∃ w h, sizeArg s.width s.height a.size = .ok (w, h) := by
    cases hz : a.size with
    | none => exact ⟨_, _, rfl⟩
    | some z =>
      obtain ⟨w, h, hm⟩ := hs z hz
      refine ⟨w, h, ?_⟩
      cases hm with
      | square => rfl
      | pair => rfl
      | named hf => simp [sizeArg, sizePair, getPageSize, hf]
  obtain ⟨w, h, hwh⟩ := h1
  have h2 : ∃ d, marginArg pf s.margin a.margin = .ok d ∧ ∀ q ∈ d, q.1 ∈ sideNames := by
    cases hz : a.margin with
    | none => exact ⟨_, rfl, hd⟩
    | some m =>
      obtain ⟨d, hd1, hd2⟩ := hm m hz
      refine ⟨dupdate s.margin d, by simp [marginArg, hd1], ?_⟩
      have gen : ∀ (e b : List (Str × Rat)), (∀ q ∈ b, q.1 ∈ sideNames) → (∀ q ∈ e, q.1 ∈ sideNames) →
          ∀ q ∈ dupdate b e, q.1 ∈ sideNames := by
        intro e
        induction e with
        | nil => intro b hb _; simpa [dupdate] using hb
        | cons r e ih =>
          intro b hb he
          refine ih (dset r.1 r.2 b) ?_ fun q hq => he q (by simp [hq])
          intro q hq
          have : q.1 ∈ (dset r.1 r.2 b).map Prod.fst := List.mem_map_of_mem hq
          rw [dset_keys] at this
          split at this
          · obtain ⟨q', hq', e⟩ := List.mem_map.1 this
            rw [← e]; exact hb q' hq'
          · rcases List.mem_append.1 this with this | this
            · obtain ⟨q', hq', e⟩ := List.mem_map.1 this
              rw [← e]; exact hb q' hq'
            · simp only [List.mem_singleton] at this
              rw [this]; exact he r (by simp)
      exact gen d s.margin hd hd2
  obtain ⟨d, hd1, hd2⟩ := h2
  have h3 : d.all (fun p => sideNames.contains p.1) = true := by
    rw [List.all_eq_true]
    intro q hq
    simpa using hd2 q hq
  simp only [PageSetup.addPage, hwh, hd1, Page.ofMargins, h3, if_true]
  exact ⟨_, rfl⟩

example : ∃ p, PageSetup.addPage (fun _ => none) ⟨milli 595276, milli 841890, false, [(c!"top", 10), (c!"left", 20)]⟩
    3 ⟨none, some true, some (.list [5])⟩ .ok = .ok p ∧ p.width = milli 841890 ∧ p.marginTop = 5 ∧
      p.contentWidth = milli 841890 - 10 := by
  refine ⟨_, rfl, rfl, rfl, ?_⟩
  decide +kernel
example : SizeMeans (.str c!"a4") (milli 595276) (milli 841890) := .named (by rfl)
example : KeepsSheet (fun q => .ok { q with x := 7, yUp := 100 }) := by
  intro q q' h; cases h; exact ⟨rfl, rfl, rfl, rfl, rfl, rfl⟩

end Verif
