import Verif.Lemmas.Parser
import Verif.Lemmas.Digits
/-! Lemmas about the loop of `PDFBase.output`. -/
namespace Verif
open Spec

/-- what the loop writes for one object -/
def objBytes (flate : Bytes → Bytes) (i : Nat) (o : PDFObj) : Bytes :=
  match (parseObj flate o.value).1 with
  | .ok (some b) => objHead (i + 1) ++ b ++ b!"\nendobj\n"
  | _ => []

/-- everything the loop writes, starting with object number `i + 1` -/
def allBytes (flate : Bytes → Bytes) : Nat → List PDFObj → Bytes
  | _, [] => []
  | i, o :: os => objBytes flate i o ++ allBytes flate (i + 1) os

/-- all the xref entries -/
def allXref (flate : Bytes → Bytes) : Nat → Nat → List PDFObj → Bytes
  | _, _, [] => []
  | i, count, o :: os =>
    xrefEntry count ++ allXref flate (i + 1) (count + (objBytes flate i o).length) os

theorem outputLoop_ok {flate : Bytes → Bytes} {i count : Nat} {l : List PDFObj}
    (h : (outputLoop flate i count l).err = none) :
    (outputLoop flate i count l).written = allBytes flate i l ∧
    (outputLoop flate i count l).xref = allXref flate i count l ∧
    (outputLoop flate i count l).count = count + (allBytes flate i l).length ∧
    (outputLoop flate i count l).content = l.map (fun o => ⟨o.id, (parseObj flate o.value).2⟩) ∧
    ∀ o ∈ l, ∃ b, (parseObj flate o.value).1 = .ok (some b) := by
  induction l generalizing i count with
  | nil => simp [outputLoop, allBytes, allXref]
  | cons o l ih =>
    unfold outputLoop at h ⊢
    cases hr : (parseObj flate o.value).1 with
    | error e => simp [hr] at h
    | ok r =>
      cases r with
      | none => simp [hr] at h
      | some b =>
        simp only [hr] at h ⊢
        obtain ⟨h1, h2, h3, h4, h5⟩ := ih h
        have hob : objBytes flate i o = objHead (i + 1) ++ b ++ b!"\nendobj\n" := by
          simp [objBytes, hr]
        refine ⟨?_, ?_, ?_, ?_, ?_⟩
        · rw [h1, allBytes, hob]
        · rw [h2, allXref, hob]
        · rw [h3, allBytes, hob]
          simp only [List.length_append]
          omega
        · rw [h4]; simp
        · intro o' ho'
          rcases List.mem_cons.1 ho' with rfl | ho'
          · exact ⟨b, hr⟩
          · exact h5 o' ho'

theorem outputLoop_intro {flate : Bytes → Bytes} {i count : Nat} {l : List PDFObj}
    (h : ∀ o ∈ l, ∃ b, (parseObj flate o.value).1 = .ok (some b)) :
    (outputLoop flate i count l).err = none := by
  induction l generalizing i count with
  | nil => simp [outputLoop]
  | cons o l ih =>
    obtain ⟨b, hb⟩ := h o (by simp)
    unfold outputLoop
    simp only [hb]
    exact ih fun o ho => h o (by simp [ho])

theorem xrefEntry_length {n : Nat} (h : n < 10 ^ 10) : (xrefEntry n).length = 20 := by
  simp [xrefEntry, zfill_length (w := 10) (by omega) h]

/-- Position of object `k` of the list: the bytes before it. -/
def posOf (flate : Bytes → Bytes) : Nat → List PDFObj → Nat → Nat
  | i, o :: os, k + 1 => (objBytes flate i o).length + posOf flate (i + 1) os k
  | _, _, _ => 0

theorem posOf_le (flate : Bytes → Bytes) (i : Nat) (l : List PDFObj) (k : Nat) :
    posOf flate i l k ≤ (allBytes flate i l).length := by
  induction l generalizing i k with
  | nil => cases k <;> simp [posOf]
  | cons o l ih =>
    cases k with
    | zero => simp [posOf]
    | succ k =>
      have := ih (i + 1) k
      simp only [posOf, allBytes, List.length_append]
      omega

theorem allBytes_at {flate : Bytes → Bytes} {i : Nat} {l : List PDFObj} {k : Nat}
    (hk : k < l.length) :
    objBytes flate (i + k) l[k] <+: (allBytes flate i l).drop (posOf flate i l k) := by
  induction l generalizing i k with
  | nil => simp at hk
  | cons o l ih =>
    cases k with
    | zero => simp [posOf, allBytes]
    | succ k =>
      simp only [List.length_cons] at hk
      have := ih (i := i + 1) (k := k) (by omega)
      simp only [posOf, allBytes, List.getElem_cons_succ]
      rw [List.drop_append, List.drop_eq_nil_of_le (by omega)]
      rw [Nat.add_sub_cancel_left]
      simpa [Nat.add_comm 1 k, Nat.add_assoc] using this

theorem allXref_at {flate : Bytes → Bytes} {i count : Nat} {l : List PDFObj} {k : Nat}
    (hk : k < l.length) (hsmall : count + (allBytes flate i l).length < 10 ^ 10) :
    xrefEntry (count + posOf flate i l k) <+: (allXref flate i count l).drop (20 * k) := by
  induction l generalizing i count k with
  | nil => simp at hk
  | cons o l ih =>
    cases k with
    | zero => simp [posOf, allXref]
    | succ k =>
      simp only [List.length_cons] at hk
      simp only [allBytes, List.length_append] at hsmall
      have := ih (i := i + 1) (count := count + (objBytes flate i o).length) (k := k) (by omega)
        (by omega)
      simp only [posOf, allXref]
      rw [List.drop_append, List.drop_eq_nil_of_le (by rw [xrefEntry_length (by omega)]; omega),
        xrefEntry_length (by omega)]
      have h20 : 20 * (k + 1) - 20 = 20 * k := by omega
      rw [h20]
      simpa [Nat.add_assoc] using this

theorem allXref_length {flate : Bytes → Bytes} {i count : Nat} {l : List PDFObj}
    (hsmall : count + (allBytes flate i l).length < 10 ^ 10) :
    (allXref flate i count l).length = 20 * l.length := by
  induction l generalizing i count with
  | nil => simp [allXref]
  | cons o l ih =>
    simp only [allBytes, List.length_append] at hsmall
    simp only [allXref, List.length_append, List.length_cons]
    rw [ih (by omega), xrefEntry_length (by omega)]
    omega

/-- the header `output` writes -/
def headerOf (s : Base) : Bytes := (c!"%PDF-" ++ s.version ++ c!"\n%%\x129\x129\x129\n").map latin1

theorem output_ok {flate : Bytes → Bytes} {u1 u2 : Bytes} {s : Base}
    (h : (s.output flate u1 u2).err = none) :
    s.version.all isLatin = true ∧
    (outputLoop flate 0 (headerOf s).length s.content).err = none ∧
    ∃ t t3, parseObj flate (.dict (trailerOf u1 u2 s)) = (.ok (some t), .dict t3) ∧
      (s.output flate u1 u2).written = headerOf s ++ allBytes flate 0 s.content ++
        (b!"\nxref\n0 " ++ (natStr s.count).map latin1 ++ b!"\n0000000000 65535 f \n" ++
          allXref flate 0 (headerOf s).length s.content ++ b!"trailer\n" ++ t ++
          (b!"\nstartxref\n" ++ (natStr ((headerOf s).length + (allBytes flate 0 s.content).length + 1)).map
            latin1 ++ b!"\n%%EOF")) ∧
      (s.output flate u1 u2).base =
        { s with content := s.content.map (fun o => ⟨o.id, (parseObj flate o.value).2⟩)
                 trailer := t3 } := by
  unfold Base.output at h ⊢
  cases henc : encodeLatin (c!"%PDF-" ++ s.version ++ c!"\n%%\x129\x129\x129\n") with
  | error e => simp only [henc] at h; simp at h
  | ok header =>
    have hall : s.version.all isLatin = true := by
      unfold encodeLatin at henc
      split at henc
      · rename_i hc
        simp only [List.all_append, Bool.and_eq_true] at hc
        exact hc.1.2
      · simp at henc
    have hh : header = headerOf s := by
      unfold encodeLatin at henc
      split at henc
      · simpa [headerOf] using henc.symm
      · simp at henc
    subst hh
    simp only [henc] at h ⊢
    cases hlp : (outputLoop flate 0 (headerOf s).length s.content).err with
    | some e => simp [hlp] at h
    | none =>
      obtain ⟨h1, h2, h3, h4, h5⟩ := outputLoop_ok hlp
      simp only [hlp] at h ⊢
      have hdict : ∃ t3, (parseObj flate (.dict (trailerOf u1 u2 s))).2 = .dict t3 := by
        unfold parseObj
        cases dget kStream (trailerOf u1 u2 s) <;> simp
      obtain ⟨t3, ht3⟩ := hdict
      cases hp : (parseObj flate (.dict (trailerOf u1 u2 s))).1 with
      | error e => simp [hp] at h
      | ok r =>
        cases r with
        | none => simp [hp] at h
        | some t =>
          refine ⟨hall, trivial, t, t3, ?_, ?_, ?_⟩
          · exact Prod.ext hp ht3
          · simp only [h1, h2, h3]
          · simp only [h4, ht3]

theorem output_intro {flate : Bytes → Bytes} {u1 u2 : Bytes} {s : Base} {t : Bytes}
    (h1 : s.version.all isLatin = true)
    (h2 : ∀ o ∈ s.content, ∃ b, (parseObj flate o.value).1 = .ok (some b))
    (h3 : (parseObj flate (.dict (trailerOf u1 u2 s))).1 = .ok (some t)) :
    (s.output flate u1 u2).err = none := by
  have henc : encodeLatin (c!"%PDF-" ++ s.version ++ c!"\n%%\x129\x129\x129\n")
      = .ok (headerOf s) := by
    unfold encodeLatin
    rw [if_pos]
    · rfl
    · simp only [List.all_append, h1]
      decide
  unfold Base.output
  simp only [henc, outputLoop_intro h2]
  rw [h3]

theorem outputLoop_content_length (flate : Bytes → Bytes) (i c : Nat) (l : List PDFObj) :
    (outputLoop flate i c l).content.length = l.length := by
  induction l generalizing i c with
  | nil => simp [outputLoop]
  | cons o l ih =>
    unfold outputLoop
    simp only
    split <;> simp [ih]

theorem output_content_length (flate : Bytes → Bytes) (u1 u2 : Bytes) (s : Base) :
    (s.output flate u1 u2).base.content.length = s.content.length ∧
    (s.output flate u1 u2).base.count = s.count := by
  unfold Base.output
  simp only
  split
  · simp
  · split
    · simp [outputLoop_content_length]
    · split <;> simp [outputLoop_content_length]

/-- The number of adds of a history that were accepted. -/
def acceptedAdds : List BaseOp → Nat
  | [] => 0
  | .add .other :: ops => acceptedAdds ops
  | .add _ :: ops => acceptedAdds ops + 1
  | _ :: ops => acceptedAdds ops

theorem step_length (flate : Bytes → Bytes) (s : Base) (op : BaseOp)
    (h : s.count = s.content.length + 1) :
    (s.step flate op).count = (s.step flate op).content.length + 1 ∧
    (s.step flate op).content.length = s.content.length + acceptedAdds [op] := by
  cases op with
  | add o => cases o <;> simp [Base.step, Base.add, allowedType, acceptedAdds, h]
  | set i v =>
    simp only [Base.step, Base.setItem, acceptedAdds]
    split
    · split <;> simp [h]
    · simp [h]
  | output u1 u2 =>
    have := output_content_length flate u1 u2 s
    simp only [Base.step, acceptedAdds]
    omega

theorem acceptedAdds_cons (op : BaseOp) (ops : List BaseOp) :
    acceptedAdds (op :: ops) = acceptedAdds [op] + acceptedAdds ops := by
  cases op with
  | add o => cases o <;> simp [acceptedAdds, Nat.add_comm]
  | set i v => simp [acceptedAdds]
  | output u1 u2 => simp [acceptedAdds]

theorem run_length (flate : Bytes → Bytes) (s : Base) (ops : List BaseOp)
    (h : s.count = s.content.length + 1) :
    (s.run flate ops).count = (s.run flate ops).content.length + 1 ∧
    (s.run flate ops).content.length = s.content.length + acceptedAdds ops := by
  induction ops generalizing s with
  | nil => simp [Base.run, acceptedAdds, h]
  | cons op ops ih =>
    have h1 := step_length flate s op h
    have h2 := ih (s.step flate op) h1.1
    rw [acceptedAdds_cons]
    simp only [Base.run, List.foldl_cons] at h2 ⊢
    omega

theorem getItem_pos {s : Base} {k : Nat} (hk : 0 < k) :
    s.getItem k = match s.content[k - 1]? with
      | some x => .ok (some x)
      | none => .error .indexError := by
  have h1 : ¬ ((k : Int) = 0) := by omega
  have h2 : ((k : Int) - 1) = ((k - 1 : Nat) : Int) := by omega
  simp only [Base.getItem, if_neg h1, h2, pyIndex]
  have h4 : ¬ (((k - 1 : Nat) : Int) < 0) := by omega
  simp only [h4, if_false, Int.toNat_natCast]
  cases s.content[k - 1]? <;> rfl

theorem xref_points (flate : Bytes → Bytes) (s : Base) (u1 u2 : Bytes)
    (hcount : s.count = s.content.length + 1)
    (hok : (s.output flate u1 u2).err = none)
    (hsmall : (s.output flate u1 u2).written.length < 10 ^ 10) :
    let file := (s.output flate u1 u2).written
    ∃ (xrefPos : Nat) (xrefDigits sizeDigits : Bytes),
      b!"\nstartxref\n" ++ xrefDigits ++ b!"\n%%EOF" <:+ file ∧
      isDecimal xrefDigits = true ∧ decVal xrefDigits = xrefPos ∧
      isDecimal sizeDigits = true ∧ decVal sizeDigits = s.len + 1 ∧
      At file xrefPos (b!"xref\n0 " ++ sizeDigits ++ b!"\n0000000000 65535 f \n") ∧
      ∀ k, (hk : k < s.content.length) → ∃ (off : Nat) (digits numDigits body : Bytes),
        digits.length = 10 ∧ isDecimal digits = true ∧ decVal digits = off ∧
        At file (xrefPos + (b!"xref\n0 " ++ sizeDigits ++ b!"\n").length + 20 * (k + 1))
          (digits ++ b!" 00000 n \n") ∧
        isDecimal numDigits = true ∧ decVal numDigits = k + 1 ∧
        (parseObj flate s.content[k].value).1 = .ok (some body) ∧
        At file off (numDigits ++ b!" 0 obj\n" ++ body ++ b!"\nendobj\n") := by
  intro file
  obtain ⟨hver, hloop, tr, t3, htr, hw, hb⟩ := output_ok hok
  obtain ⟨_, _, _, _, hbodies⟩ := outputLoop_ok hloop
  change file.length < 10 ^ 10 at hsmall
  change file = _ at hw
  generalize hA : allBytes flate 0 s.content = A at hw
  generalize hH : headerOf s = H at hw
  generalize hX : allXref flate 0 H.length s.content = X at hw
  have hlen : H.length + A.length < 10 ^ 10 := by
    rw [hw] at hsmall
    simp only [List.length_append] at hsmall
    omega
  refine ⟨H.length + A.length + 1, (natStr (H.length + A.length + 1)).map latin1,
    (natStr s.count).map latin1, ?_, isDecimal_natStr _, decVal_natStr _, isDecimal_natStr _, ?_, ?_, ?_⟩
  · rw [hw]
    refine ⟨H ++ A ++ (b!"\nxref\n0 " ++ (natStr s.count).map latin1 ++
      b!"\n0000000000 65535 f \n" ++ X ++ b!"trailer\n" ++ tr), ?_⟩
    simp
  · rw [decVal_natStr, hcount]; rfl
  · rw [At, hw]
    refine ⟨X ++ b!"trailer\n" ++ tr ++ (b!"\nstartxref\n" ++
      (natStr (H.length + A.length + 1)).map latin1 ++ b!"\n%%EOF"), ?_⟩
    rw [List.drop_append, List.drop_eq_nil_of_le (by simp only [List.length_append]; omega)]
    simp only [List.length_append]
    have : H.length + A.length + 1 - (H.length + A.length) = 1 := by omega
    rw [this]
    simp
  · intro k hk
    obtain ⟨body, hbody⟩ := hbodies s.content[k] (List.getElem_mem hk)
    have hpos : posOf flate 0 s.content k ≤ A.length := by
      rw [← hA]; exact posOf_le flate 0 s.content k
    refine ⟨H.length + posOf flate 0 s.content k,
      (zfill 10 (natStr (H.length + posOf flate 0 s.content k))).map latin1,
      (natStr (k + 1)).map latin1, body, ?_, isDecimal_zfill _ _, decVal_zfill _ _, ?_,
      isDecimal_natStr _, decVal_natStr _, hbody, ?_⟩
    · rw [List.length_map]
      exact zfill_length (by omega) (by omega)
    · have hx := allXref_at (flate := flate) (i := 0) (count := H.length) (l := s.content) (k := k) hk
        (by rw [hA]; exact hlen)
      rw [hX] at hx
      obtain ⟨r, hr⟩ := hx
      rw [At, hw]
      have hXlen : X.length = 20 * s.content.length := by
        rw [← hX]; exact allXref_length (by rw [hA]; exact hlen)
      refine ⟨r ++ (b!"trailer\n" ++ tr ++ (b!"\nstartxref\n" ++
        (natStr (H.length + A.length + 1)).map latin1 ++ b!"\n%%EOF")), ?_⟩
      have hsplit : H ++ A ++ (b!"\nxref\n0 " ++ (natStr s.count).map latin1 ++
          b!"\n0000000000 65535 f \n" ++ X ++ b!"trailer\n" ++ tr ++
          (b!"\nstartxref\n" ++ (natStr (H.length + A.length + 1)).map latin1 ++ b!"\n%%EOF"))
        = (H ++ A ++ (b!"\nxref\n0 " ++ (natStr s.count).map latin1 ++
            b!"\n0000000000 65535 f \n")) ++ (X ++ (b!"trailer\n" ++ tr ++
          (b!"\nstartxref\n" ++ (natStr (H.length + A.length + 1)).map latin1 ++ b!"\n%%EOF"))) := by
        simp only [List.append_assoc]
      rw [hsplit]
      have hl : (H ++ A ++ (b!"\nxref\n0 " ++ (natStr s.count).map latin1 ++
            b!"\n0000000000 65535 f \n")).length
          = H.length + A.length + 1 + (b!"xref\n0 " ++ (natStr s.count).map latin1 ++ b!"\n").length + 20 := by
        simp only [List.length_append, List.length_cons, List.length_nil]
        omega
      have hd : H.length + A.length + 1 + (b!"xref\n0 " ++ (natStr s.count).map latin1 ++ b!"\n").length
            + 20 * (k + 1)
          = (H ++ A ++ (b!"\nxref\n0 " ++ (natStr s.count).map latin1 ++
            b!"\n0000000000 65535 f \n")).length + 20 * k := by
        rw [hl]; omega
      rw [hd, List.drop_append, List.drop_eq_nil_of_le (by omega), Nat.add_sub_cancel_left,
        List.nil_append, List.drop_append_of_le_length (by omega), ← hr]
      simp only [xrefEntry, List.append_assoc]
    · have ha := allBytes_at (flate := flate) (i := 0) (l := s.content) (k := k) hk
      rw [hA] at ha
      obtain ⟨r, hr⟩ := ha
      rw [At, hw]
      have hob : objBytes flate (0 + k) s.content[k]
          = (natStr (k + 1)).map latin1 ++ b!" 0 obj\n" ++ body ++ b!"\nendobj\n" := by
        simp [objBytes, hbody, objHead]
      rw [hob] at hr
      refine ⟨r ++ (b!"\nxref\n0 " ++ (natStr s.count).map latin1 ++
          b!"\n0000000000 65535 f \n" ++ X ++ b!"trailer\n" ++ tr ++
          (b!"\nstartxref\n" ++ (natStr (H.length + A.length + 1)).map latin1 ++ b!"\n%%EOF")), ?_⟩
      rw [List.append_assoc H A, List.drop_append, List.drop_eq_nil_of_le (by omega),
        Nat.add_sub_cancel_left, List.nil_append, List.drop_append_of_le_length (by omega), ← hr]
      simp only [List.append_assoc]

end Verif
