import Verif.Spec.Elements
/-! C82: elements are shown as what they are. -/
namespace Verif
open Spec

theorem hasDot_iff (keys : List Str) : hasDot keys = true ↔ ∃ k, '.' :: k ∈ keys := by
  unfold hasDot
  rw [List.any_eq_true]
  constructor
  · rintro ⟨k, h1, h2⟩
    cases k with
    | nil => simp at h2
    | cons c k =>
      have : c = '.' := by simpa using h2
      exact ⟨k, this ▸ h1⟩
  · rintro ⟨k, h⟩
    exact ⟨_, h, by simp⟩

theorem not_hasDot {keys : List Str} (h : ∀ k, '.' :: k ∉ keys) : hasDot keys = false := by
  rw [Bool.eq_false_iff, Ne, hasDot_iff]
  rintro ⟨k, hk⟩
  exact h k hk

theorem kind_dict {keys : List Str} {kind : ElKind} {k : Str} (hk : (k, kind) ∈ kindKeys) (h : k ∈ keys) (hd : ∀ k, '.' :: k ∉ keys)
    (hone : ∀ p ∈ kindKeys, p.1 ∈ keys → p.1 = k) (hi : ∀ k ∈ innerKeys, k ∉ keys) :
    hasDot keys = false ∧ keys.contains c!"paragraph" = false ∧ keys.contains c!"table_delayed" = false ∧
    keys.contains c!"image" = decide (kind = .image) ∧ keys.contains c!"table" = decide (kind = .table) ∧
    keys.contains c!"content" = decide (kind = .content) ∧ keys.contains c!"group" = decide (kind = .group) := by
  have hn : ∀ a : Str, a ∉ keys → keys.contains a = false := fun a ha => by simpa using ha
  have hy : ∀ a : Str, a ∈ keys → keys.contains a = true := fun a ha => by simpa using ha
  have ho : ∀ p ∈ kindKeys, p.1 ≠ k → keys.contains p.1 = false := fun p hp hpk => hn _ fun hm => hpk (hone p hp hm)
  refine ⟨not_hasDot hd, hn _ (hi _ (by decide)), hn _ (hi _ (by decide)), ?_⟩
  have i1 := ho (c!"image", .image) (by decide)
  have i2 := ho (c!"table", .table) (by decide)
  have i3 := ho (c!"content", .content) (by decide)
  have i4 := ho (c!"group", .group) (by decide)
  simp only [kindKeys, List.mem_cons, Prod.mk.injEq, List.not_mem_nil, or_false] at hk
  rcases hk with ⟨rfl, rfl⟩ | ⟨rfl, rfl⟩ | ⟨rfl, rfl⟩ | ⟨rfl, rfl⟩
  · exact ⟨hy _ h, i2 (by decide), i3 (by decide), i4 (by decide)⟩
  · exact ⟨i1 (by decide), hy _ h, i3 (by decide), i4 (by decide)⟩
  · exact ⟨i1 (by decide), i2 (by decide), hy _ h, i4 (by decide)⟩
  · exact ⟨i1 (by decide), i2 (by decide), i3 (by decide), hy _ h⟩

/-- **C82.** In a content box, an element of any kind is taken as what it is. -/
theorem C82_box {e : ElIn} {k : ElKind} (h : IsKind e k) : boxKind e = .ok k := by
  cases h with
  | str | list | tuple => rfl
  | dot h hi =>
    unfold boxKind processKind
    simp [parseElement, (hasDot_iff _).2 ⟨_, h⟩]
  | key hk h hd hone hi =>
    obtain ⟨a, b, c, d, e, f, g⟩ := kind_dict hk h hd hone hi
    unfold boxKind processKind
    simp only [parseElement, a, b, c, d, e, f, g]
    cases k <;> first | rfl | (simp [kindKeys] at hk)

/-- **C82.** In a group, paragraphs, images and tables are taken as what they are; boxes and groups are refused. -/
theorem C82_group {e : ElIn} {k : ElKind} (h : IsKind e k) : groupKind e = if k = .content ∨ k = .group then .error .exception else .ok k := by
  cases h with
  | str | list | tuple => rfl
  | dot h hi =>
    unfold groupKind
    simp [parseElement, (hasDot_iff _).2 ⟨_, h⟩]
  | key hk h hd hone hi =>
    obtain ⟨a, b, c, d, e, f, g⟩ := kind_dict hk h hd hone hi
    unfold groupKind
    simp only [parseElement, a, b, c, d, e]
    cases k <;> first | rfl | (simp [kindKeys] at hk)

/-- **C82.** In a table, paragraphs, images, tables and content boxes are taken as what they are. -/
theorem C82_cell {e : ElIn} {k : ElKind} (h : IsKind e k) (hk : k ≠ .group) : cellKind e = some k := by
  cases h with
  | str | list | tuple => rfl
  | dot h hi =>
    unfold cellKind
    simp [cellKeys, (hasDot_iff _).2 ⟨_, h⟩]
  | key hk' h hd hone hi =>
    obtain ⟨a, b, c, d, e, f, g⟩ := kind_dict hk' h hd hone hi
    unfold cellKind
    simp only [cellKeys, a, d, e, f]
    cases k <;> first | rfl | exact absurd rfl hk | (simp [kindKeys] at hk')

/-- **C82.** Numbers and other objects in a cell are taken as their text, and nothing as an empty paragraph. -/
theorem C82_cell_text (text : Str) : cellKind (.other text) = some .text ∧ cellKind .none = some .text := ⟨rfl, rfl⟩

/-- a table, given as a dict with further keys -/
example : IsKind (.dict [c!"style", c!"table", c!"widths"]) .table :=
  .key (k := c!"table") (by decide) (by decide) (by intro k; simp) (by decide) (by decide)

example : boxKind (.dict [c!"style", c!".b;s:3"]) = .ok .text ∧ cellKind (.dict [c!"colspan", c!"content", c!"cols"]) = some .content ∧ groupKind (.dict [c!"content"]) = .error .exception := by
  decide +kernel

/-! ### Where it fails -/

/-- C82 fails for numbers in content boxes and groups: `parse_element` makes a string of them, as `get_cell_style` does, but not a dict of the string -/
theorem C82_number_false (text : Str) : boxKind (.other text) = .error .attributeError ∧ groupKind (.other text) = .error .attributeError ∧ cellKind (.other text) = some .text :=
  ⟨rfl, rfl, rfl⟩

/-- C82 fails for groups in tables: nothing is shown, and the cell is never finished (`C29_no_content_false`) -/
theorem C82_group_in_table_false : ∃ e, IsKind e .group ∧ cellKind e = none :=
  ⟨.dict [c!"group"], .key (k := c!"group") (by decide) (by decide) (by intro k; simp) (by decide) (by decide), by decide⟩

/-- dicts of no kind: an `AttributeError`, an exception, and a cell that is never finished -/
theorem C82_no_kind_false : boxKind (.dict [c!"imagen"]) = .error .attributeError ∧ groupKind (.dict [c!"imagen"]) = .error .exception ∧ cellKind (.dict [c!"imagen"]) = none := by
  decide +kernel

/-- a dict that could be two things is a table for a content box, a content box for a table -/
theorem C82_two_kinds_false : boxKind (.dict [c!"table", c!"content"]) = .ok .table ∧ cellKind (.dict [c!"table", c!"content"]) = some .content := by
  decide +kernel

end Verif
