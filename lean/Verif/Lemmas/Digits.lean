import Verif.Py
import Verif.Spec.File
namespace Verif
open Spec

theorem natStr_digit {n : Nat} {c : Char} (h : c ∈ natStr n) : c.isDigit :=
  Nat.isDigit_of_mem_toDigits (by omega) (by omega) h

theorem natStr_ne_nil (n : Nat) : natStr n ≠ [] := Nat.toDigits_ne_nil

theorem isDigit_range {c : Char} (h : c.isDigit) : 48 ≤ c.toNat ∧ c.toNat ≤ 57 := by
  simp only [Char.isDigit, Bool.and_eq_true, decide_eq_true_eq] at h
  exact ⟨UInt32.le_iff_toNat_le.1 h.1, UInt32.le_iff_toNat_le.1 h.2⟩

theorem latin1_toNat {c : Char} (h : c.toNat < 256) : (latin1 c).toNat = c.toNat := by
  simp [latin1, UInt8.toNat_ofNat', Nat.mod_eq_of_lt h]

theorem foldl_dec (l : Str) (h : ∀ c ∈ l, c.isDigit) (a : Nat) :
    (l.map latin1).foldl (fun a c => 10 * a + (c.toNat - 48)) a = Nat.ofDigitChars 10 l a := by
  induction l generalizing a with
  | nil => simp
  | cons c l ih =>
    have hc := isDigit_range (h c (by simp))
    simp only [List.map_cons, List.foldl_cons, Nat.ofDigitChars_cons]
    rw [ih (fun c hc => h c (by simp [hc])), latin1_toNat (by omega)]
    rfl

theorem decVal_natStr (n : Nat) : decVal ((natStr n).map latin1) = n := by
  rw [decVal, foldl_dec _ (fun c => natStr_digit)]
  exact Nat.ofDigitChars_ten_toDigits

theorem foldl_zeros (k : Nat) (l : Bytes) :
    decVal ((List.replicate k '0').map latin1 ++ l) = decVal l := by
  induction k with
  | zero => simp
  | succ k ih =>
    rw [← ih]
    simp [List.replicate_succ, decVal, latin1]

theorem decVal_zfill (w n : Nat) : decVal ((zfill w (natStr n)).map latin1) = n := by
  rw [zfill, List.map_append, foldl_zeros, decVal_natStr]

theorem zfill_length {w n : Nat} (hw : 0 < w) (h : n < 10 ^ w) : (zfill w (natStr n)).length = w := by
  have : (natStr n).length ≤ w := (Nat.length_toDigits_le_iff (by omega) hw).2 h
  simp [zfill]; omega

theorem isDecimal_map {l : Str} (hne : l ≠ []) (h : ∀ c ∈ l, c.isDigit) :
    isDecimal (l.map latin1) = true := by
  simp only [isDecimal, Bool.and_eq_true, List.all_eq_true, List.mem_map, forall_exists_index,
    and_imp, forall_apply_eq_imp_iff₂]
  constructor
  · cases l <;> simp_all
  · intro c hc
    have h1 := isDigit_range (h c hc)
    have h2 := latin1_toNat (c := c) (by omega)
    constructor <;> rw [decide_eq_true_eq, UInt8.le_iff_toNat_le] <;> simp [h2] <;> omega

theorem isDecimal_zfill (w n : Nat) : isDecimal ((zfill w (natStr n)).map latin1) = true := by
  apply isDecimal_map
  · simp [zfill, natStr_ne_nil]
  · intro c hc
    simp only [zfill, List.mem_append, List.mem_replicate] at hc
    rcases hc with ⟨_, rfl⟩ | hc
    · rfl
    · exact natStr_digit hc

theorem isDecimal_natStr (n : Nat) : isDecimal ((natStr n).map latin1) = true :=
  isDecimal_map (natStr_ne_nil n) (fun _ => natStr_digit)

end Verif
