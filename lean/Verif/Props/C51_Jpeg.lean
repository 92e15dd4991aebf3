import Verif.Model.Image
import Verif.Spec.Jpeg
/-! C51: JPEG dimensions. -/
namespace Verif
open Spec.Jpeg

theorem byte_forall {P : UInt8 → Prop} (h : ∀ n : Fin 256, P (UInt8.ofNat n.val)) : ∀ b, P b := by
  intro b
  have := h ⟨b.toNat, b.toNat_lt⟩
  simpa using this

theorem alone_facts : ∀ m : UInt8, isStandAlone m = true → ¬ m < 0xC0 ∧ m ≠ 0xDA ∧ bareMarker m = true := by
  apply byte_forall; decide +kernel

theorem segment_facts : ∀ m : UInt8, isSegment m = true →
    ¬ m < 0xC0 ∧ m ≠ 0xDA ∧ bareMarker m = false ∧ sofMarker m = false := by
  apply byte_forall; decide +kernel

theorem sof_facts : ∀ m : UInt8, isSOF m = true →
    ¬ m < 0xC0 ∧ m ≠ 0xDA ∧ bareMarker m = false ∧ sofMarker m = true := by
  apply byte_forall; decide +kernel

theorem sof_spec : ∀ m : UInt8, sofMarker m = true → isSOF m = true := by
  apply byte_forall; decide +kernel

theorem jpegScan_cons (hi lo : UInt8) (rest : Bytes) : jpegScan (hi :: lo :: rest) =
    if hi ≠ 0xFF ∨ lo < 0xC0 then .error .exception
    else if lo = 0xDA then .error .exception
    else if bareMarker lo then jpegScan rest
    else match rest with
      | s1 :: s2 :: rest' =>
        if sofMarker lo then unpackFrame (rest'.take (256 * s1.toNat + s2.toNat - 2))
        else jpegScan (rest'.drop (256 * s1.toNat + s2.toNat - 2))
      | _ => .error .structError := by
  match rest with
  | [] => rw [jpegScan]; intro _ _ _ h; cases h
  | [_] => rw [jpegScan]; intro _ _ _ h; cases h
  | _ :: _ :: _ => rw [jpegScan]

theorem jpegScan_part (p : Part) (hp : p.Ok) (rest : Bytes) : jpegScan (p.bytes ++ rest) = jpegScan rest := by
  cases p with
  | alone m =>
    obtain ⟨h1, h2, h3⟩ := alone_facts m hp
    simp only [Part.bytes, List.cons_append, List.nil_append]
    rw [jpegScan_cons]
    simp [h1, h2, h3]
  | segment m hi lo data =>
    obtain ⟨hs, hl⟩ := hp
    obtain ⟨h1, h2, h3, h4⟩ := segment_facts m hs
    simp only [Part.bytes, List.cons_append]
    rw [jpegScan_cons]
    unfold be16 at hl
    simp [h1, h2, h3, h4, hl]

theorem jpegScan_parts : ∀ (ps : List Part), (∀ p ∈ ps, p.Ok) → ∀ rest,
    jpegScan ((ps.map Part.bytes).flatten ++ rest) = jpegScan rest := by
  intro ps
  induction ps with
  | nil => intro _ rest; simp
  | cons p ps ih =>
    intro h rest
    simp only [List.map_cons, List.flatten_cons, List.append_assoc]
    rw [jpegScan_part p (h p (by simp)), ih fun q hq => h q (by simp [hq])]

/-- the image object for a frame header and the bytes of the file -/
def imageObj (f : Frame) (data : Bytes) : Obj :=
  .dict [(.str c!"Type", .bytes b!"/XObject"), (.str c!"Subtype", .bytes b!"/Image"),
    (.str c!"Width", .int (be16 f.wHi f.wLo)), (.str c!"Height", .int (be16 f.hHi f.hLo)),
    (.str c!"ColorSpace", .bytes (colorSpace f.comps)), (.str c!"BitsPerComponent", .int f.depth.toNat),
    (.str c!"Filter", .bytes b!"/DCTDecode"), (.str c!"__skip_filter__", .bool true),
    (.str c!"__stream__", .bytes data)]

/-- C51: a file that starts with any sequence of non-frame segments and RST/SOI/EOI markers followed by
a frame header, whatever comes after, gets the width, height, depth and colour space of that frame
header, and its bytes are embedded unchanged. Missing from the full property: fill bytes before a marker
and the TEM marker, see `C51_fill_bytes_false` and `C51_tem_rejected`. -/
theorem C51_jpeg_header_partial (ps : List Part) (hps : ∀ p ∈ ps, p.Ok) (f : Frame) (hf : f.Ok) (rest : Bytes) :
    parseJpg ((ps.map Part.bytes).flatten ++ f.bytes ++ rest) =
      .ok (be16 f.wHi f.wLo, be16 f.hHi f.hLo, imageObj f ((ps.map Part.bytes).flatten ++ f.bytes ++ rest)) := by
  have : jpegScan ((ps.map Part.bytes).flatten ++ f.bytes ++ rest) =
      .ok ⟨f.depth.toNat, be16 f.hHi f.hLo, be16 f.wHi f.wLo, colorSpace f.comps⟩ := by
    rw [List.append_assoc, jpegScan_parts ps hps]
    obtain ⟨hs, _, hl⟩ := hf
    obtain ⟨h1, h2, h3, h4⟩ := sof_facts f.m hs
    simp only [Frame.bytes, List.cons_append, List.nil_append]
    rw [jpegScan_cons]
    unfold be16 at hl
    have : 8 + f.params.length - 2 = f.params.length + 6 := by omega
    simp [h1, h2, h3, h4, hl, this, unpackFrame, be16, colspaceOf, colorSpace]
  unfold parseJpg
  rw [this]
  rfl

/-- C51: whatever is accepted contains a frame header with exactly the values reported, and what is
embedded is the whole input. -/
theorem C51_accepted_has_frame (data : Bytes) (w h : Nat) (o : Obj) (ha : parseJpg data = .ok (w, h, o)) :
    ∃ pre m l1 l2 depth hHi hLo wHi wLo comps post,
      data = pre ++ [0xFF, m, l1, l2, depth, hHi, hLo, wHi, wLo, comps] ++ post ∧ isSOF m = true ∧
      8 ≤ be16 l1 l2 ∧
      w = be16 wHi wLo ∧ h = be16 hHi hLo ∧
      o = imageObj ⟨m, l1, l2, depth, hHi, hLo, wHi, wLo, comps, []⟩ data := by
  have gen : ∀ (n : Nat) (s : Bytes), s.length ≤ n → ∀ i, jpegScan s = .ok i →
      ∃ pre m l1 l2 depth hHi hLo wHi wLo comps post,
        s = pre ++ [0xFF, m, l1, l2, depth, hHi, hLo, wHi, wLo, comps] ++ post ∧ isSOF m = true ∧
        8 ≤ be16 l1 l2 ∧
        i = ⟨depth.toNat, be16 hHi hLo, be16 wHi wLo, colorSpace comps⟩ := by
    intro n
    induction n with
    | zero =>
      intro s hs i hi
      have : s = [] := List.length_eq_zero_iff.1 (by omega)
      subst this
      rw [jpegScan] at hi
      · cases hi
      · intro _ _ _ h; cases h
    | succ n ih =>
      intro s hs i hi
      match s, hs, hi with
      | [], _, hi => rw [jpegScan] at hi; · cases hi
                     · intro _ _ _ h; cases h
      | [_], _, hi => rw [jpegScan] at hi; · cases hi
                      · intro _ _ _ h; cases h
      | hh :: ll :: rest, hs, hi =>
        rw [jpegScan_cons] at hi
        split at hi
        · cases hi
        · rename_i hm
          split at hi
          · cases hi
          · split at hi
            · obtain ⟨pre, m, l1, l2, a, b, c, d, e, f, post, h1, h2⟩ := ih rest (by simp at hs; omega) i hi
              exact ⟨hh :: ll :: pre, m, l1, l2, a, b, c, d, e, f, post, by rw [h1]; rfl, h2⟩
            · split at hi
              · rename_i s1 s2 rest'
                split at hi
                · rename_i hsof
                  unfold unpackFrame at hi
                  split at hi
                  · rename_i _ d h1 h2 w1 w2 l tl htk
                    have hlen : 6 ≤ (rest'.take (256 * s1.toNat + s2.toNat - 2)).length := by
                      rw [htk]; simp
                    have hr : rest' = [d, h1, h2, w1, w2, l] ++ (tl ++ rest'.drop (256 * s1.toNat + s2.toNat - 2)) := by
                      conv => lhs; rw [← List.take_append_drop (256 * s1.toNat + s2.toNat - 2) rest', htk]
                      rfl
                    cases hi
                    have h0 : hh = 0xFF := by
                      by_cases hx : hh = 0xFF
                      · exact hx
                      · exact absurd (Or.inl hx) hm
                    subst h0
                    refine ⟨[], ll, s1, s2, d, h1, h2, w1, w2, l, _, by rw [hr]; rfl, sof_spec ll hsof, ?_, rfl⟩
                    rw [List.length_take] at hlen
                    unfold be16
                    omega
                  · cases hi
                · have hle : (rest'.drop (256 * s1.toNat + s2.toNat - 2)).length ≤ n := by
                    simp at hs ⊢; omega
                  obtain ⟨pre, m, l1, l2, a, b, c, d, e, f, post, h1, h2⟩ := ih _ hle i hi
                  refine ⟨hh :: ll :: s1 :: s2 :: (rest'.take (256 * s1.toNat + s2.toNat - 2) ++ pre),
                    m, l1, l2, a, b, c, d, e, f, post, ?_, h2⟩
                  have := List.take_append_drop (256 * s1.toNat + s2.toNat - 2) rest'
                  rw [h1] at this
                  conv => lhs; rw [← this]
                  simp
              · cases hi
  unfold parseJpg at ha
  split at ha
  · cases ha
  · rename_i i hi
    cases ha
    obtain ⟨pre, m, l1, l2, a, b, c, d, e, f, post, h1, h2, h3, h4⟩ := gen data.length data (Nat.le_refl _) i hi
    subst h4
    exact ⟨pre, m, l1, l2, a, b, c, d, e, f, post, h1, h2, h3, rfl, rfl, rfl⟩

/-- C51: the only way to fail is a `ValueError`. -/
theorem C51_rejected_value_error (data : Bytes) (e : PyErr) (h : parseJpg data = .error e) :
    e = .valueError := by
  unfold parseJpg at h
  split at h
  · cases h; rfl
  · cases h

/-- C51: a scan header before any frame header is rejected, after any sequence of segments. -/
theorem C51_scan_without_frame_rejected (ps : List Part) (hps : ∀ p ∈ ps, p.Ok) (rest : Bytes) :
    parseJpg ((ps.map Part.bytes).flatten ++ 0xFF :: 0xDA :: rest) = .error .valueError := by
  unfold parseJpg
  rw [jpegScan_parts ps hps, jpegScan_cons]
  simp

/-- C51: a file that ends before a frame header is rejected. -/
theorem C51_no_frame_rejected (ps : List Part) (hps : ∀ p ∈ ps, p.Ok) :
    parseJpg (ps.map Part.bytes).flatten = .error .valueError := by
  have := jpegScan_parts ps hps []
  rw [List.append_nil] at this
  unfold parseJpg
  rw [this, jpegScan]
  intro _ _ _ h; cases h

/-- a small gray frame, 16 by 8 -/
def sampleFrame : Frame := ⟨0xC0, 0, 11, 8, 0, 8, 0, 16, 1, [1, 0x11, 0]⟩

/-- C51 fails for files with fill bytes: any marker may be preceded by 0xFF bytes (T.81, B.1.1.2), but
the second fill byte is taken for a marker with a segment, so this valid header is rejected although the
same header without fill byte is accepted. -/
theorem C51_fill_bytes_false :
    sampleFrame.Ok ∧ parseJpg ((Part.alone 0xD8).bytes ++ [0xFF] ++ sampleFrame.bytes) = .error .valueError := by
  refine ⟨⟨by decide, by decide, by decide⟩, ?_⟩
  unfold parseJpg
  have : jpegScan ((Part.alone 0xD8).bytes ++ [0xFF] ++ sampleFrame.bytes) = .error .structError := by
    decide +kernel
  rw [this]

/-- C51 fails for the stand-alone marker TEM (0x01): it is rejected wherever it appears. -/
theorem C51_tem_rejected (ps : List Part) (hps : ∀ p ∈ ps, p.Ok) (rest : Bytes) :
    parseJpg ((ps.map Part.bytes).flatten ++ 0xFF :: 0x01 :: rest) = .error .valueError := by
  unfold parseJpg
  rw [jpegScan_parts ps hps, jpegScan_cons]
  have : (1 : UInt8) < 0xC0 := by decide
  simp [this]

example : sampleFrame.Ok := ⟨by decide, by decide, by decide⟩
example : (∀ p ∈ [Part.alone 0xD8, .segment 0xE0 0 4 [1, 2], .segment 0xDB 0 2 []], p.Ok) := by
  intro p hp
  simp only [List.mem_cons, List.not_mem_nil, or_false] at hp
  rcases hp with rfl | rfl | rfl
  · show isStandAlone _ = true; decide
  · exact ⟨by decide, by decide⟩
  · exact ⟨by decide, by decide⟩
example : jpegScan ([0xFF, 0xD8, 0xFF, 0xE0, 0, 4, 1, 2] ++ sampleFrame.bytes ++ [9, 9]) =
    .ok ⟨8, 8, 16, b!"/DeviceGray"⟩ := by decide +kernel

end Verif
