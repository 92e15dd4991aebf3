import Verif.Model.Roman
import Verif.Spec.Roman
import Verif.Lemmas.Digits
/-! Lemmas for C12. -/
namespace Verif
open Spec

/-- the four digit groups of a numeral -/
def romanPieces (a b c d : Nat) : Str :=
  romanTen a c!"M" [] [] ++ (romanTen b c!"C" c!"D" c!"M" ++
    (romanTen c c!"X" c!"L" c!"C" ++ romanTen d c!"I" c!"V" c!"X"))

theorem digitVal_digitChar : ∀ d : Fin 10, digitVal (Nat.digitChar d.val) = d.val := by decide

theorem romanTen_zero (x y z : Str) : romanTen 0 x y z = [] := rfl

theorem natStr_lt {n : Nat} (h : n < 10) : natStr n = [Nat.digitChar n] :=
  Nat.toDigits_of_lt_base h

theorem natStr_ge {n : Nat} (h : 10 ≤ n) : natStr n = natStr (n / 10) ++ [Nat.digitChar (n % 10)] :=
  Nat.toDigits_of_base_le (by omega) h

theorem toRoman_pieces (n : Nat) (h0 : 0 < n) (h1 : n < 4000) :
    toRoman (n : Int) = .ok (romanPieces (n / 1000) (n / 100 % 10) (n / 10 % 10) (n % 10)) := by
  have hd : ∀ k, digitVal (Nat.digitChar (k % 10)) = k % 10 := fun k =>
    digitVal_digitChar ⟨k % 10, by omega⟩
  simp only [toRoman]
  rw [if_neg (by omega)]
  have hs : intStr (n : Int) = natStr n := rfl
  rw [hs]
  by_cases h2 : n < 10
  · rw [natStr_lt h2]
    have e := hd n
    rw [Nat.mod_eq_of_lt h2] at e
    have e1 : n / 1000 = 0 := by omega
    have e2 : n / 100 % 10 = 0 := by omega
    have e3 : n / 10 % 10 = 0 := by omega
    have e4 : n % 10 = n := by omega
    simp [fromEnd, e, e1, e2, e3, e4, romanPieces, romanTen_zero]
  · rw [natStr_ge (by omega)]
    by_cases h3 : n < 100
    · rw [natStr_lt (by omega)]
      have e := hd n
      have f := hd (n / 10)
      have e1 : n / 1000 = 0 := by omega
      have e2 : n / 100 % 10 = 0 := by omega
      have e3 : n / 10 % 10 = n / 10 := by omega
      rw [e3] at f
      simp [fromEnd, e, f, e1, e2, e3, romanPieces, romanTen_zero]
    · rw [natStr_ge (n := n / 10) (by omega)]
      by_cases h4 : n < 1000
      · rw [natStr_lt (by omega)]
        have e := hd n
        have f := hd (n / 10)
        have g := hd (n / 10 / 10)
        have e1 : n / 1000 = 0 := by omega
        have e2 : n / 100 % 10 = n / 10 / 10 := by omega
        have e3 : n / 10 / 10 % 10 = n / 10 / 10 := by omega
        rw [e3] at g
        simp [fromEnd, e, f, g, e1, e2, romanPieces, romanTen_zero]
      · rw [natStr_ge (n := n / 10 / 10) (by omega), natStr_lt (by omega)]
        have e := hd n
        have f := hd (n / 10)
        have g := hd (n / 10 / 10)
        have k := hd (n / 10 / 10 / 10)
        have e1 : n / 1000 = n / 10 / 10 / 10 := by omega
        have e2 : n / 100 % 10 = n / 10 / 10 % 10 := by omega
        have e3 : n / 10 / 10 / 10 % 10 = n / 10 / 10 / 10 := by omega
        rw [e3] at k
        simp [fromEnd, e, f, g, k, e1, e2, romanPieces]

/-- one step of the greedy fold over the four groups of a decimal position -/
theorem group_step (x y z : Str) (m : Nat) (hm : 0 < m) (d r : Nat) (hd : d < 10) (hr : r < m) (acc : Str) :
    List.foldl (fun (acc : Str × Nat) g =>
      (acc.1 ++ (List.replicate (acc.2 / g.1) g.2).flatten, acc.2 % g.1)) (acc, d * m + r)
      [(9 * m, x ++ z), (5 * m, y), (4 * m, x ++ y), (m, x)] = (acc ++ romanTen d x y z, r) := by
  have key : ∀ k : Nat, k ≤ d → d < 2 * k → (d * m + r) / (k * m) = 1 ∧
      (d * m + r) % (k * m) = (d - k) * m + r := by
    intro k h1 h2
    have e : d * m + r = k * m + ((d - k) * m + r) := by
      rw [← Nat.add_assoc, ← Nat.add_mul, Nat.add_sub_cancel' h1]
    have hlt : (d - k) * m + r < k * m := by
      have : (d - k + 1) * m ≤ k * m := Nat.mul_le_mul_right m (by omega)
      rw [Nat.add_mul] at this; omega
    have hpos : 0 < k * m := by omega
    constructor
    · rw [e, Nat.add_comm, Nat.add_div_right _ hpos, Nat.div_eq_of_lt hlt]
    · rw [e, Nat.add_mod_left, Nat.mod_eq_of_lt hlt]
  have small : ∀ (k d : Nat), d < k → (d * m + r) / (k * m) = 0 ∧
      (d * m + r) % (k * m) = d * m + r := by
    intro k d h
    have hlt : d * m + r < k * m := by
      have : (d + 1) * m ≤ k * m := Nat.mul_le_mul_right m (by omega)
      rw [Nat.add_mul] at this; omega
    exact ⟨Nat.div_eq_of_lt hlt, Nat.mod_eq_of_lt hlt⟩
  have ones : ∀ d : Nat, (d * m + r) / m = d ∧ (d * m + r) % m = r := by
    intro d
    constructor
    · rw [Nat.mul_comm, Nat.mul_add_div hm, Nat.div_eq_of_lt hr]; rfl
    · rw [Nat.mul_comm, Nat.mul_add_mod, Nat.mod_eq_of_lt hr]
  have hcases : d = 0 ∨ d = 1 ∨ d = 2 ∨ d = 3 ∨ d = 4 ∨ d = 5 ∨ d = 6 ∨ d = 7 ∨ d = 8 ∨ d = 9 := by
    omega
  simp only [List.foldl_cons, List.foldl_nil]
  rcases hcases with rfl | rfl | rfl | rfl | rfl | rfl | rfl | rfl | rfl | rfl
  · rw [(small 9 0 (by omega)).1, (small 9 0 (by omega)).2, (small 5 0 (by omega)).1,
      (small 5 0 (by omega)).2, (small 4 0 (by omega)).1, (small 4 0 (by omega)).2,
      (ones 0).1, (ones 0).2]
    simp [romanTen, romanFive, strMul]
  · rw [(small 9 1 (by omega)).1, (small 9 1 (by omega)).2, (small 5 1 (by omega)).1,
      (small 5 1 (by omega)).2, (small 4 1 (by omega)).1, (small 4 1 (by omega)).2,
      (ones 1).1, (ones 1).2]
    simp [romanTen, romanFive, strMul]
  · rw [(small 9 2 (by omega)).1, (small 9 2 (by omega)).2, (small 5 2 (by omega)).1,
      (small 5 2 (by omega)).2, (small 4 2 (by omega)).1, (small 4 2 (by omega)).2,
      (ones 2).1, (ones 2).2]
    simp [romanTen, romanFive, strMul]
  · rw [(small 9 3 (by omega)).1, (small 9 3 (by omega)).2, (small 5 3 (by omega)).1,
      (small 5 3 (by omega)).2, (small 4 3 (by omega)).1, (small 4 3 (by omega)).2,
      (ones 3).1, (ones 3).2]
    simp [romanTen, romanFive, strMul]
  · rw [(small 9 4 (by omega)).1, (small 9 4 (by omega)).2, (small 5 4 (by omega)).1,
      (small 5 4 (by omega)).2, (key 4 (by omega) (by omega)).1, (key 4 (by omega) (by omega)).2,
      (ones (4 - 4)).1, (ones (4 - 4)).2]
    simp [romanTen, romanFive]
  · rw [(small 9 5 (by omega)).1, (small 9 5 (by omega)).2, (key 5 (by omega) (by omega)).1,
      (key 5 (by omega) (by omega)).2, (small 4 (5 - 5) (by omega)).1, (small 4 (5 - 5) (by omega)).2,
      (ones (5 - 5)).1, (ones (5 - 5)).2]
    simp [romanTen]
  · rw [(small 9 6 (by omega)).1, (small 9 6 (by omega)).2, (key 5 (by omega) (by omega)).1,
      (key 5 (by omega) (by omega)).2, (small 4 (6 - 5) (by omega)).1, (small 4 (6 - 5) (by omega)).2,
      (ones (6 - 5)).1, (ones (6 - 5)).2]
    simp [romanTen, romanFive, strMul]
  · rw [(small 9 7 (by omega)).1, (small 9 7 (by omega)).2, (key 5 (by omega) (by omega)).1,
      (key 5 (by omega) (by omega)).2, (small 4 (7 - 5) (by omega)).1, (small 4 (7 - 5) (by omega)).2,
      (ones (7 - 5)).1, (ones (7 - 5)).2]
    simp [romanTen, romanFive, strMul]
  · rw [(small 9 8 (by omega)).1, (small 9 8 (by omega)).2, (key 5 (by omega) (by omega)).1,
      (key 5 (by omega) (by omega)).2, (small 4 (8 - 5) (by omega)).1, (small 4 (8 - 5) (by omega)).2,
      (ones (8 - 5)).1, (ones (8 - 5)).2]
    simp [romanTen, romanFive, strMul]
  · rw [(key 9 (by omega) (by omega)).1, (key 9 (by omega) (by omega)).2, (small 5 (9 - 9) (by omega)).1,
      (small 5 (9 - 9) (by omega)).2, (small 4 (9 - 9) (by omega)).1, (small 4 (9 - 9) (by omega)).2,
      (ones (9 - 9)).1, (ones (9 - 9)).2]
    simp [romanTen, romanFive]

theorem canonical_pieces (n : Nat) (h1 : n < 4000) :
    canonical n = romanPieces (n / 1000) (n / 100 % 10) (n / 10 % 10) (n % 10) := by
  have hg : groups = (1000, c!"M") :: ([(9 * 100, c!"C" ++ c!"M"), (5 * 100, c!"D"), (4 * 100, c!"C" ++ c!"D"), (100, c!"C")]
      ++ ([(9 * 10, c!"X" ++ c!"C"), (5 * 10, c!"L"), (4 * 10, c!"X" ++ c!"L"), (10, c!"X")]
      ++ [(9 * 1, c!"I" ++ c!"X"), (5 * 1, c!"V"), (4 * 1, c!"I" ++ c!"V"), (1, c!"I")])) := rfl
  have e2 : n % 1000 = (n / 100 % 10) * 100 + n % 100 := by omega
  have e3 : n % 100 = (n / 10 % 10) * 10 + n % 10 := by omega
  have e4 : n % 10 = (n % 10) * 1 + 0 := by omega
  have hm : romanTen (n / 1000) c!"M" [] [] = (List.replicate (n / 1000) c!"M").flatten := by
    have : n / 1000 < 4 := by omega
    simp only [romanTen, romanFive, strMul]
    rw [if_pos (by omega), if_pos this]
  rw [canonical, hg, List.foldl_cons, List.foldl_append, List.foldl_append]
  simp only []
  rw [e2, group_step _ _ _ 100 (by omega) _ _ (by omega) (by omega), e3,
    group_step _ _ _ 10 (by omega) _ _ (by omega) (by omega)]
  rw [show n % 10 = (n % 10) * 1 + 0 from e4]
  rw [group_step _ _ _ 1 (by omega) _ _ (by omega) (by omega)]
  simp [romanPieces, hm]

/-- value of the numeral of each combination of digits: a finite table of 4000 entries -/
theorem pieces_value : ((List.range 4).all fun a => (List.range 10).all fun b =>
    (List.range 10).all fun c => (List.range 10).all fun d =>
      romanValue (romanPieces a b c d) == some (1000 * (a : Int) + 100 * b + 10 * c + d)) = true := by
  decide +kernel

theorem roman_table (n : Nat) (h0 : 0 < n) (h1 : n < 4000) :
    toRoman (n : Int) = .ok (canonical n) ∧ romanValue (canonical n) = some (n : Int) := by
  rw [canonical_pieces n h1, toRoman_pieces n h0 h1]
  refine ⟨rfl, ?_⟩
  have h := pieces_value
  rw [List.all_eq_true] at h
  have h2 := h (n / 1000) (by simp; omega)
  rw [List.all_eq_true] at h2
  have h3 := h2 (n / 100 % 10) (by simp; omega)
  rw [List.all_eq_true] at h3
  have h4 := h3 (n / 10 % 10) (by simp; omega)
  rw [List.all_eq_true] at h4
  have h5 := h4 (n % 10) (by simp; omega)
  rw [beq_iff_eq] at h5
  rw [h5]
  congr 1
  omega

end Verif
