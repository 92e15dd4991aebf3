import Verif.Lemmas.Roman
/-! C12: Roman page numbers. -/
namespace Verif
open Spec

/-- C12: for every integer strictly between 0 and 4000, `to_roman` returns the canonical numeral, whose
value is the integer. -/
theorem C12_roman (n : Int) (h0 : 0 < n) (h1 : n < 4000) :
    ∃ s, toRoman n = .ok s ∧ s = canonical n.toNat ∧ romanValue s = some n := by
  have h := roman_table n.toNat (by omega) (by omega)
  have hn : ((n.toNat : Nat) : Int) = n := by omega
  simp only [hn] at h
  exact ⟨_, h.1, rfl, h.2⟩

/-- C12: all other integers are rejected. -/
theorem C12_rejected (n : Int) (h : n ≤ 0 ∨ 4000 ≤ n) : toRoman n = .error .exception := by
  simp only [toRoman]
  rw [if_pos (by omega)]

/-- C12: distinct integers give distinct numerals. -/
theorem C12_injective (m n : Int) (s : Str) (hm : toRoman m = .ok s) (hn : toRoman n = .ok s) :
    m = n := by
  have aux : ∀ k : Int, toRoman k = .ok s → romanValue s = some k := by
    intro k hk
    by_cases h : 0 < k ∧ k < 4000
    · obtain ⟨t, h1, _, h3⟩ := C12_roman k h.1 h.2
      rw [hk] at h1
      cases h1
      exact h3
    · rw [C12_rejected k (by omega)] at hk
      cases hk
  have := (aux m hm).symm.trans (aux n hn)
  exact Option.some.inj this

example : toRoman 1994 = .ok c!"MCMXCIV" := by rfl
example : canonical 3888 = c!"MMMDCCCLXXXVIII" := by rfl

end Verif
