import Verif.Model.Range
import Verif.Spec.Slice
import Verif.Lemmas.Digits
/-! Lemmas about integer texts, splitting and ranges. -/
namespace Verif
open Spec

theorem blank_space {c : Char} (h : c = ' ' ∨ c = '\t') : isSpace c = true := by
  rcases h with rfl | rfl <;> rfl

theorem dropWhile_append_all {α} {p : α → Bool} {l : List α} (h : ∀ c ∈ l, p c = true) (r : List α) :
    (l ++ r).dropWhile p = r.dropWhile p := by
  induction l with
  | nil => rfl
  | cons a l ih =>
    simp only [List.cons_append, List.dropWhile_cons, h a (by simp), if_true]
    exact ih fun c hc => h c (by simp [hc])

theorem strip_pad {pre s post : Str} (h1 : Blank pre) (h2 : Blank post) :
    strip (pre ++ s ++ post) = strip s := by
  have hp : ∀ c ∈ pre, isSpace c = true := fun c hc => blank_space (h1 c hc)
  have hq : ∀ c ∈ post.reverse, isSpace c = true := fun c hc => blank_space (h2 c (by simpa using hc))
  simp only [strip]
  rw [List.append_assoc, dropWhile_append_all hp]
  congr 1
  by_cases hs : ∀ c ∈ s, isSpace c = true
  · rw [dropWhile_append_all hs]
    have e1 : post.dropWhile isSpace = [] := by
      simpa using dropWhile_append_all (p := isSpace) (fun c hc => blank_space (h2 c hc)) []
    have e2 : s.dropWhile isSpace = [] := by simpa using dropWhile_append_all hs []
    rw [e1, e2]
  · have : (s ++ post).dropWhile isSpace = s.dropWhile isSpace ++ post := by
      induction s with
      | nil => simp at hs
      | cons a s ih =>
        simp only [List.cons_append, List.dropWhile_cons]
        split
        · rename_i ha
          apply ih
          intro h; apply hs
          intro c hc
          rcases List.mem_cons.1 hc with rfl | hc
          · exact ha
          · exact h c hc
        · rfl
    rw [this, List.reverse_append, dropWhile_append_all hq]

theorem strip_id {s : Str} (h : ∀ c ∈ s, isSpace c = false) : strip s = s := by
  have e : ∀ t : Str, (∀ c ∈ t, isSpace c = false) → t.dropWhile isSpace = t := by
    intro t ht
    cases t with
    | nil => rfl
    | cons a t => simp [ht a (by simp)]
  rw [strip, e s h, e _ (by simpa using h), List.reverse_reverse]

theorem strip_strip_blank {s : Str} (h : Blank s) : strip s = [] := by
  have := strip_pad (s := []) h (by intro c hc; simp at hc : Blank [])
  simpa [strip] using this

theorem natStr_nospace {n : Nat} {c : Char} (h : c ∈ natStr n) : isSpace c = false := by
  have := isDigit_range (natStr_digit h)
  simp only [isSpace, Bool.or_eq_false_iff, beq_eq_false_iff_ne, Bool.and_eq_false_iff,
    decide_eq_false_iff_not]
  omega

theorem intStr_chars {n : Int} {c : Char} (h : c ∈ intStr n) : c = '-' ∨ c.isDigit := by
  cases n with
  | ofNat n => exact .inr (natStr_digit h)
  | negSucc n =>
    simp only [intStr, List.mem_cons] at h
    rcases h with h | h
    · exact .inl h
    · exact .inr (natStr_digit h)

theorem intStr_nospace {n : Int} {c : Char} (h : c ∈ intStr n) : isSpace c = false := by
  cases n with
  | ofNat n => exact natStr_nospace h
  | negSucc n =>
    simp only [intStr, List.mem_cons] at h
    rcases h with rfl | h
    · rfl
    · exact natStr_nospace h

theorem parseNat_natStr (n : Nat) : parseNat (natStr n) = some n := by
  rw [parseNat, if_pos ⟨natStr_ne_nil n, by
    rw [List.all_eq_true]; exact fun c hc => natStr_digit hc⟩]
  exact congrArg some Nat.ofDigitChars_ten_toDigits

theorem natStr_head_digit {n : Nat} : ∃ c cs, natStr n = c :: cs ∧ c.isDigit := by
  cases h : natStr n with
  | nil => exact absurd h (natStr_ne_nil n)
  | cons c cs => exact ⟨c, cs, rfl, natStr_digit (n := n) (by simp [h])⟩

theorem strip_intText {t : IntText} (h : t.Ok) : strip t.text = intStr t.val := by
  rw [IntText.text, strip_pad h.1 h.2, strip_id fun c => intStr_nospace]

theorem parseInt_strip (s : Str) : parseInt (strip s) = parseInt s := by
  have : strip (strip s) = strip s := by
    have hd : ∀ s : Str, (s.dropWhile isSpace).dropWhile isSpace = s.dropWhile isSpace := by
      intro s
      induction s with
      | nil => rfl
      | cons a s ih =>
        simp only [List.dropWhile_cons]
        split
        · exact ih
        · rename_i ha; simp [ha]
    have hpre : ∀ u : Str, u.dropWhile isSpace = u →
        ((u.reverse.dropWhile isSpace).reverse).dropWhile isSpace = (u.reverse.dropWhile isSpace).reverse := by
      intro u hu
      cases hw : (u.reverse.dropWhile isSpace).reverse with
      | nil => rfl
      | cons a w =>
        have hsuf : (u.reverse.dropWhile isSpace).reverse <+: u := by
          have : u.reverse.dropWhile isSpace <:+ u.reverse := List.dropWhile_suffix _
          rw [← List.reverse_prefix] at this
          simpa using this
        rw [hw] at hsuf
        obtain ⟨r, hr⟩ := hsuf
        rw [← hr] at hu
        simp only [List.cons_append, List.dropWhile_cons] at hu ⊢
        split at hu
        · rename_i ha
          have hlen := congrArg List.length hu
          have hle := (List.dropWhile_suffix (l := w ++ r) isSpace).length_le
          simp only [List.length_cons] at hlen
          omega
        · rename_i ha; simp [ha]
    unfold strip
    rw [hpre _ (hd s), List.reverse_reverse, hd]
  simp only [parseInt, this]

theorem parseInt_intStr (n : Int) : parseInt (intStr n) = .ok n := by
  have h : strip (intStr n) = intStr n := strip_id fun c => intStr_nospace
  rw [parseInt, h]
  cases n with
  | ofNat n =>
    obtain ⟨c, cs, hc, hd⟩ := natStr_head_digit (n := n)
    have hne : c ≠ '-' ∧ c ≠ '+' := by
      constructor <;> rintro rfl <;> exact absurd hd (by decide)
    have hp := parseNat_natStr n
    simp only [intStr, hc] at hp ⊢
    split
    · rename_i heq; simp only [List.cons.injEq] at heq; exact absurd heq.1 hne.1
    · rename_i heq; simp only [List.cons.injEq] at heq; exact absurd heq.1 hne.2
    · rw [hp]; rfl
  | negSucc n =>
    simp only [intStr, parseNat_natStr]
    rfl

theorem parseInt_text {t : IntText} (h : t.Ok) : parseInt t.text = .ok t.val := by
  rw [← parseInt_strip, strip_intText h, parseInt_intStr]

/-! splitting -/

theorem splitOn_ne_nil (sep : Char) (s : Str) : splitOn sep s ≠ [] := by
  cases s with
  | nil => simp [splitOn]
  | cons c cs =>
    simp only [splitOn]
    split
    · simp
    · split <;> simp

theorem splitOn_free {sep : Char} {s : Str} (h : sep ∉ s) : splitOn sep s = [s] := by
  induction s with
  | nil => rfl
  | cons c cs ih =>
    simp only [List.mem_cons, not_or] at h
    rw [splitOn, if_neg (Ne.symm h.1), ih h.2]

theorem splitOn_append {sep : Char} {s : Str} (h : sep ∉ s) (r : Str) :
    splitOn sep (s ++ sep :: r) = s :: splitOn sep r := by
  induction s with
  | nil => simp [splitOn]
  | cons c cs ih =>
    simp only [List.mem_cons, not_or] at h
    rw [List.cons_append, splitOn, if_neg (Ne.symm h.1), ih h.2]

theorem splitOn_joinWith {sep : Char} {l : List Str} (hne : l ≠ []) (h : ∀ s ∈ l, sep ∉ s) :
    splitOn sep (joinWith sep l) = l := by
  induction l with
  | nil => exact absurd rfl hne
  | cons s l ih =>
    cases l with
    | nil => exact splitOn_free (h s (by simp))
    | cons t l =>
      rw [joinWith, splitOn_append (h s (by simp)), ih (by simp) fun s hs => h s (by simp [hs])]

theorem intText_free {t : IntText} (h : t.Ok) {sep : Char} (hs : sep = ',' ∨ sep = ':' ∨ sep = ';') :
    sep ∉ t.text := by
  intro hm
  simp only [IntText.text, List.mem_append] at hm
  rcases hm with (hm | hm) | hm
  · rcases h.1 _ hm with e | e <;> rcases hs with h' | h' | h' <;> rw [h'] at e <;> simp at e
  · have := intStr_chars hm
    rcases hs with h' | h' | h' <;> rw [h'] at this <;> revert this <;> decide
  · rcases h.2 _ hm with e | e <;> rcases hs with h' | h' | h' <;> rw [h'] at e <;> simp at e

theorem blank_free {s : Str} (h : Blank s) {sep : Char} (hs : sep = ',' ∨ sep = ':' ∨ sep = ';') :
    sep ∉ s := by
  intro hm
  rcases h _ hm with e | e <;> rcases hs with h' | h' | h' <;> rw [h'] at e <;> simp at e

theorem intText_strip_ne {t : IntText} (h : t.Ok) : strip t.text ≠ [] := by
  rw [strip_intText h]
  cases t.val with
  | ofNat n => exact natStr_ne_nil n
  | negSucc n => simp [intStr]

/-! ranges -/

theorem inRange_pos {a b c n : Int} (hc : 0 < c) :
    InRange a b c n ↔ (a ≤ n ∧ n < b) ∧ (n - a) % c = 0 := by
  constructor
  · rintro ⟨k, rfl, h⟩
    rw [if_pos hc] at h
    have : 0 ≤ (k : Int) * c := Int.mul_nonneg (by omega) (by omega)
    refine ⟨⟨by omega, h⟩, ?_⟩
    have e : a + (k : Int) * c - a = k * c := by omega
    rw [e, Int.mul_emod_left]
  · rintro ⟨⟨h1, h2⟩, h3⟩
    have hd : n - a = c * ((n - a) / c) := by
      have := Int.mul_ediv_add_emod (n - a) c
      omega
    have hnn : 0 ≤ (n - a) / c := Int.ediv_nonneg (by omega) (by omega)
    refine ⟨((n - a) / c).toNat, ?_, ?_⟩
    · have e : (((n - a) / c).toNat : Int) = (n - a) / c := by omega
      rw [e, Int.mul_comm]; omega
    · rw [if_pos hc]; exact h2

theorem inRange_neg {a b c n : Int} (hc : c < 0) :
    InRange a b c n ↔ (n ≤ a ∧ b < n) ∧ (n - a) % c = 0 := by
  constructor
  · rintro ⟨k, rfl, h⟩
    rw [if_neg (by omega)] at h
    have : (k : Int) * c ≤ 0 := Int.mul_nonpos_of_nonneg_of_nonpos (by omega) (by omega)
    refine ⟨⟨by omega, h⟩, ?_⟩
    have e : a + (k : Int) * c - a = k * c := by omega
    rw [e, Int.mul_emod_left]
  · rintro ⟨⟨h1, h2⟩, h3⟩
    have hd : n - a = c * ((n - a) / c) := by
      have := Int.mul_ediv_add_emod (n - a) c
      omega
    have hnn : 0 ≤ (n - a) / c := by
      by_cases hq : (n - a) / c < 0
      · have := Int.mul_pos_of_neg_of_neg hc hq
        omega
      · omega
    refine ⟨((n - a) / c).toNat, ?_, ?_⟩
    · have e : (((n - a) / c).toNat : Int) = (n - a) / c := by omega
      rw [e, Int.mul_comm]; omega
    · rw [if_neg (by omega)]; exact h2

theorem contains_iff {r : PyRange} (h : r.step ≠ 0) (n : Int) :
    r.contains n = true ↔ InRange r.start r.stop r.step n := by
  rw [PyRange.contains]
  split
  · rw [inRange_pos (by omega)]; simp
  · rw [inRange_neg (by omega)]; simp

/-- the elements of a range, enumerated -/
theorem toList_mem {r : PyRange} (h : r.step ≠ 0) (n : Int) :
    n ∈ r.toList ↔ InRange r.start r.stop r.step n := by
  obtain ⟨a, b, c⟩ := r
  simp only [PyRange.toList, List.mem_map, List.mem_range, PyRange.len] at *
  constructor
  · rintro ⟨k, hk, rfl⟩
    refine ⟨k, rfl, ?_⟩
    split
    · rename_i hc
      rw [if_pos hc] at hk
      split at hk
      · have hq : 0 ≤ (b - a - 1) / c := Int.ediv_nonneg (by omega) (by omega)
        have hk' : (k : Int) ≤ (b - a - 1) / c := by omega
        have := (Int.le_ediv_iff_mul_le hc).1 hk'
        omega
      · omega
    · rename_i hc
      rw [if_neg (by omega)] at hk
      split at hk
      · have hq : 0 ≤ (a - b - 1) / (-c) := Int.ediv_nonneg (by omega) (by omega)
        have hk' : (k : Int) ≤ (a - b - 1) / (-c) := by omega
        have := (Int.le_ediv_iff_mul_le (by omega)).1 hk'
        rw [Int.mul_neg] at this
        omega
      · omega
  · rintro ⟨k, rfl, hk⟩
    refine ⟨k, ?_, rfl⟩
    split at hk
    · rename_i hc
      rw [if_pos hc]
      have hkc : 0 ≤ (k : Int) * c := Int.mul_nonneg (by omega) (by omega)
      rw [if_pos (by omega)]
      have : (k : Int) ≤ (b - a - 1) / c := (Int.le_ediv_iff_mul_le hc).2 (by omega)
      omega
    · rename_i hc
      rw [if_neg (by omega)]
      have hkc : (k : Int) * c ≤ 0 := Int.mul_nonpos_of_nonneg_of_nonpos (by omega) (by omega)
      rw [if_pos (by omega)]
      have : (k : Int) ≤ (a - b - 1) / (-c) :=
        (Int.le_ediv_iff_mul_le (by omega)).2 (by rw [Int.mul_neg]; omega)
      omega

end Verif
