import Verif.Model.ImageFile
import Verif.Props.C51_Jpeg
import Verif.Lemmas.Range
import Mathlib.Data.List.Forall2
/-! C74: the kind of an image is told by the ending of its name, and the file opened for it is closed. -/
namespace Verif
open Spec Spec.Jpeg

/-- `e` is the ending `k` written with or without a dot, with blanks around it, in letters of either case -/
def Spec.Writes (e k : Str) : Prop :=
  ∃ dot pre word post : Str, e = dot ++ pre ++ word ++ post ∧ (dot = [] ∨ dot = ['.']) ∧
    (∀ c ∈ pre, isSpace c = true) ∧ (∀ c ∈ post, isSpace c = true) ∧
    List.Forall₂ (fun c l : Char => c = l ∨ c.toNat + 32 = l.toNat) word k

/-- the file holds an image in JPEG: some parts, then a frame header -/
def Spec.HoldsJpeg (data : Bytes) (f : Frame) : Prop :=
  f.Ok ∧ ∃ (ps : List Part) (rest : Bytes), (∀ p ∈ ps, p.Ok) ∧ data = (ps.map Part.bytes).flatten ++ f.bytes ++ rest

/-- the path has a last component with the ending `e` -/
def Spec.HasEnding (s e : Str) : Prop :=
  e ≠ [] ∧ '.' ∉ e ∧ '/' ∉ e ∧ ∃ dir stem : Str, (dir = [] ∨ ∃ d, dir = d ++ ['/']) ∧ '/' ∉ stem ∧ stem ≠ [] ∧ s = dir ++ stem ++ ('.' :: e)

theorem parseJpgAt_zero (d : Bytes) : parseJpgAt ⟨d, 0⟩ = parseJpg d := by
  simp only [parseJpgAt, parseJpg, List.drop_zero]
  cases jpegScan d <;> rfl

theorem lowerChar_of {c l : Char} (hl : l.isLower = true) : lowerChar c = l ↔ (c = l ∨ c.toNat + 32 = l.toNat) := by
  have hl' : 97 ≤ l.toNat ∧ l.toNat ≤ 122 := by
    simp only [Char.isLower, Bool.and_eq_true, decide_eq_true_eq] at hl
    exact ⟨hl.1, hl.2⟩
  have hr : ('A' ≤ c ∧ c ≤ 'Z') ↔ (65 ≤ c.toNat ∧ c.toNat ≤ 90) := Iff.rfl
  unfold lowerChar
  split
  · rename_i h
    rw [hr] at h
    have hv : (Char.ofNat (c.toNat + 32)).toNat = c.toNat + 32 := by
      have hq : Nat.isValidChar (c.toNat + 32) := .inl (by omega)
      simp only [Char.ofNat, hq, dif_pos]
      rfl
    constructor
    · intro e; right; rw [← e, hv]
    · rintro (e | e)
      · rw [e] at h; omega
      · rw [← Char.ofNat_toNat l, ← e]
  · rename_i h
    rw [hr] at h
    constructor
    · intro e; exact .inl e
    · rintro (e | e)
      · exact e
      · omega

theorem lower_forall {k : Str} (hk : ∀ l ∈ k, l.isLower = true) : ∀ {w : Str},
    w.map lowerChar = k ↔ List.Forall₂ (fun c l : Char => c = l ∨ c.toNat + 32 = l.toNat) w k := by
  induction k with
  | nil => intro w; simp
  | cons l k ih =>
    intro w
    cases w with
    | nil => simp
    | cons c w =>
      simp only [List.map_cons, List.cons.injEq, List.forall₂_cons]
      rw [ih fun x hx => hk x (by simp [hx]), lowerChar_of (hk l (by simp))]

theorem dropWhile_split {α} (p : α → Bool) : ∀ l : List α, ∃ a, (∀ c ∈ a, p c = true) ∧ l = a ++ l.dropWhile p := by
  intro l
  exact ⟨l.takeWhile p, fun c hc => List.all_eq_true.1 (List.all_takeWhile (p := p) (l := l)) c hc, (List.takeWhile_append_dropWhile).symm⟩

theorem strip_split (s : Str) : ∃ pre post : Str, (∀ c ∈ pre, isSpace c = true) ∧ (∀ c ∈ post, isSpace c = true) ∧ s = pre ++ strip s ++ post := by
  obtain ⟨a, ha, e⟩ := dropWhile_split isSpace s
  obtain ⟨b, hb, e'⟩ := dropWhile_split isSpace (s.dropWhile isSpace).reverse
  refine ⟨a, b.reverse, ha, fun c hc => hb c (by simpa using hc), ?_⟩
  have e2 : s.dropWhile isSpace = strip s ++ b.reverse := by
    rw [strip, ← List.reverse_append, ← e', List.reverse_reverse]
  rw [List.append_assoc, ← e2]; exact e

theorem strip_spaces {pre s post : Str} (h1 : ∀ c ∈ pre, isSpace c = true) (h2 : ∀ c ∈ post, isSpace c = true)
    (hs : ∀ c ∈ s, isSpace c = false) (hn : s ≠ []) : strip (pre ++ s ++ post) = s := by
  have e : ∀ t r : Str, (∀ c ∈ t, isSpace c = false) → t ≠ [] → (t ++ r).dropWhile isSpace = t ++ r := by
    intro t r ht hn
    cases t with
    | nil => exact absurd rfl hn
    | cons a t => simp [ht a (by simp)]
  rw [strip, List.append_assoc, dropWhile_append_all h1, e s _ hs hn, List.reverse_append,
    dropWhile_append_all (fun c hc => h2 c (by simpa using hc))]
  have := e s.reverse [] (by simpa using hs) (by simpa using hn)
  simp only [List.append_nil] at this
  rw [this, List.reverse_reverse]

theorem notSpace_of_lower {c l : Char} (hl : l.isLower = true) (h : c = l ∨ c.toNat + 32 = l.toNat) : isSpace c = false ∧ c ≠ '.' := by
  have hl' : 97 ≤ l.toNat ∧ l.toNat ≤ 122 := by
    simp only [Char.isLower, Bool.and_eq_true, decide_eq_true_eq] at hl
    exact ⟨hl.1, hl.2⟩
  have hc : 65 ≤ c.toNat ∧ c.toNat ≤ 122 := by
    rcases h with rfl | h <;> omega
  constructor
  · simp only [isSpace, Bool.or_eq_false_iff, Bool.and_eq_false_iff, beq_eq_false_iff_ne, decide_eq_false_iff_not]
    omega
  · rintro rfl
    revert hc; decide

/-- the endings, written in small letters -/
theorem normExt_iff {k : Str} (hk : ∀ l ∈ k, l.isLower = true) (hn : k ≠ []) (e : Str) : normExt e = k ↔ Writes e k := by
  constructor
  · intro h
    obtain ⟨dot, r, hd, her, hr⟩ : ∃ dot r : Str, (dot = [] ∨ dot = ['.']) ∧ e = dot ++ r ∧ (strip r).map lowerChar = k := by
      unfold normExt at h
      split at h
      · rename_i h'
        cases e with
        | nil => cases h'
        | cons c e =>
          simp only [List.head?_cons, Option.some.injEq] at h'
          exact ⟨['.'], e, .inr rfl, by rw [h']; rfl, h⟩
      · exact ⟨[], e, .inl rfl, rfl, h⟩
    obtain ⟨pre, post, h1, h2, es⟩ := strip_split r
    exact ⟨dot, pre, strip r, post, by rw [her]; conv_lhs => rw [es]
                                       simp, hd, h1, h2, (lower_forall hk).1 hr⟩
  · rintro ⟨dot, pre, w, post, rfl, hd, h1, h2, hw⟩
    have hws : ∀ c ∈ w, isSpace c = false ∧ c ≠ '.' := by
      clear hn h1 h2 hd
      induction hw with
      | nil => intro c hc; cases hc
      | cons hcl _ ih =>
        intro c hc
        rcases List.mem_cons.1 hc with rfl | hc
        · exact notSpace_of_lower (hk _ (by simp)) hcl
        · exact ih (fun l hl => hk l (by simp [hl])) c hc
    have hwn : w ≠ [] := by rintro rfl; exact hn (List.forall₂_nil_left_iff.1 hw)
    have e : (if (dot ++ pre ++ w ++ post).head? = some '.' then (dot ++ pre ++ w ++ post).tail else dot ++ pre ++ w ++ post)
        = pre ++ w ++ post := by
      rcases hd with rfl | rfl
      · rw [if_neg]
        · rfl
        · intro h
          cases pre with
          | nil =>
            cases w with
            | nil => exact hwn rfl
            | cons c w =>
              simp at h
              exact (hws c (by simp)).2 h
          | cons c pre =>
            simp at h
            have := h1 c (by simp)
            rw [h] at this; revert this; decide
      · rfl
    rw [normExt, e, strip_spaces h1 h2 (fun c hc => (hws c hc).1) hwn]
    exact (lower_forall hk).2 hw

theorem afterLast_free {c : Char} {a s : Str} (h : c ∉ s) : afterLast c (a ++ c :: s) = s := by
  have hs : ∀ x ∈ s.reverse, decide (x ≠ c) = true := fun x hx => by
    simp only [decide_eq_true_eq]; rintro rfl; exact h (by simpa using hx)
  rw [afterLast]
  simp only [List.reverse_append, List.reverse_cons, List.append_assoc, List.singleton_append]
  rw [List.takeWhile_append_of_pos hs]
  simp

theorem afterLast_none {c : Char} {s : Str} (h : c ∉ s) : afterLast c s = s := by
  have hs : ∀ x ∈ s.reverse, decide (x ≠ c) = true := fun x hx => by
    simp only [decide_eq_true_eq]; rintro rfl; exact h (by simpa using hx)
  have := List.takeWhile_append_of_pos (l₂ := []) hs
  simp only [List.append_nil, List.takeWhile_nil] at this
  rw [afterLast, this, List.reverse_reverse]

theorem ends_str {s e : Str} (h : HasEnding s e) : afterLast '.' s = e := by
  obtain ⟨_, h2, _, dir, stem, _, _, _, rfl⟩ := h
  exact afterLast_free h2

theorem ends_path {s e : Str} (h : HasEnding s e) : pathSuffix s = '.' :: e := by
  obtain ⟨h0, h2, h3, dir, stem, hd, h4, h5, rfl⟩ := h
  have hname : afterLast '/' (dir ++ stem ++ '.' :: e) = stem ++ '.' :: e := by
    have hf : '/' ∉ stem ++ '.' :: e := by simp [h4, h3]
    rcases hd with rfl | ⟨d, rfl⟩
    · exact afterLast_none (by simpa using hf)
    · have := afterLast_free (a := d) hf
      simpa using this
  have hl : 0 < stem.length := List.length_pos_iff.2 h5
  unfold pathSuffix
  simp only [hname, afterLast_free h2]
  rw [if_pos ⟨by simp, by simp; omega, h0⟩]

/-- **C74, the file.** Whatever happens, the file opened for an image is closed, once, and a file-like object of the caller is left open. -/
theorem C74_closed (env : ImageEnv) (image : ImageArg) (ext : ExtArg) (name : Option Str) :
    (imageInit env image ext name).closed = (imageInit env image ext name).opened ∧
    (imageInit env image ext name).opened = (match image with
      | .str s | .path s => if (env.files s).isSome then [s] else []
      | _ => []) := by
  unfold imageInit imageSource
  cases image with
  | str s => cases h : env.files s <;> simp [h]
  | path s => cases h : env.files s <;> simp [h]
  | file f => cases name <;> cases ext <;> simp
  | other => simp

/-- the bytes and the name an image argument stands for; a file-like object is taken where it is -/
def Spec.Source (env : ImageEnv) (image : ImageArg) (name : Option Str) (d : Bytes) (n : Str) : Prop :=
  match image with
  | .str s | .path s => env.files s = some d ∧ n = s
  | .file f => f = ⟨d, 0⟩ ∧ name = some n
  | .other => False

/-- the ending: the one given, or that of the path -/
def Spec.Ending (image : ImageArg) (ext : ExtArg) (e : Str) : Prop :=
  match ext with
  | .str e' => e' = e
  | .none => match image with
    | .str s | .path s => HasEnding s e
    | _ => False
  | .other => False

theorem normExt_dot {e : Str} (hd : '.' ∉ e) : normExt ('.' :: e) = normExt e := by
  have : e.head? ≠ some '.' := by
    intro h; exact hd (List.mem_of_mem_head? h)
  simp [normExt, this]

theorem init_result {env : ImageEnv} {image : ImageArg} {ext : ExtArg} {name : Option Str} {d : Bytes} {n e : Str}
    (hs : Source env image name d n) (he : Ending image ext e) :
    ∃ e', normExt e' = normExt e ∧ (imageInit env image ext name).result = (parseByExt env ⟨d, 0⟩ (.str e')).map fun r => (n, r) := by
  cases image with
  | str s =>
    obtain ⟨h1, rfl⟩ := hs
    cases ext with
    | none => exact ⟨e, rfl, by simp [imageInit, imageSource, h1, ends_str he]⟩
    | str e' => cases he; exact ⟨e, rfl, by simp [imageInit, imageSource, h1]⟩
    | other => exact he.elim
  | path s =>
    obtain ⟨h1, rfl⟩ := hs
    cases ext with
    | none => exact ⟨'.' :: e, normExt_dot he.2.1, by simp [imageInit, imageSource, h1, ends_path he]⟩
    | str e' => cases he; exact ⟨e, rfl, by simp [imageInit, imageSource, h1]⟩
    | other => exact he.elim
  | file f =>
    obtain ⟨rfl, rfl⟩ := hs
    cases ext with
    | none => exact he.elim
    | str e' => cases he; exact ⟨e, rfl, by simp [imageInit, imageSource]⟩
    | other => exact he.elim
  | other => exact hs.elim

/-- **C74, JPEG.** An image whose ending is jpg or jpeg, in letters of either case, is embedded as it is, with the width, the height, the depth and
the colours of its frame header. -/
theorem C74_jpg_partial {env : ImageEnv} {image : ImageArg} {ext : ExtArg} {name : Option Str} {d : Bytes} {n e : Str}
    (hs : Source env image name d n) (he : Ending image ext e) (hk : Writes e c!"jpg" ∨ Writes e c!"jpeg")
    {f : Frame} (hd : HoldsJpeg d f) :
    (imageInit env image ext name).result = .ok (n, be16 f.wHi f.wLo, be16 f.hHi f.hLo, imageObj f d) := by
  obtain ⟨e', h1, h2⟩ := init_result hs he
  have hj : normExt e' = c!"jpg" ∨ normExt e' = c!"jpeg" := by
    rw [h1]
    exact hk.imp (normExt_iff (by decide) (by decide) e).2 (normExt_iff (by decide) (by decide) e).2
  obtain ⟨hf, ps, rest, hps, rfl⟩ := hd
  rw [h2, parseByExt, if_pos hj, parseJpgAt_zero, C51_jpeg_header_partial ps hps f hf rest]
  rfl

/-- **C74, PNG.** An image whose ending is png is embedded as the JPEG file Pillow makes of it. -/
theorem C74_png_partial {env : ImageEnv} {image : ImageArg} {ext : ExtArg} {name : Option Str} {d : Bytes} {n e : Str}
    (hs : Source env image name d n) (he : Ending image ext e) (hk : Writes e c!"png")
    {j : Bytes} (hj : env.pillow d = .ok j) {f : Frame} (hd : HoldsJpeg j f) :
    (imageInit env image ext name).result = .ok (n, be16 f.wHi f.wLo, be16 f.hHi f.hLo, imageObj f j) := by
  obtain ⟨e', h1, h2⟩ := init_result hs he
  have hp : normExt e' = c!"png" := by rw [h1]; exact (normExt_iff (by decide) (by decide) e).2 hk
  obtain ⟨hf, ps, rest, hps, rfl⟩ := hd
  rw [h2, parseByExt, if_neg (by rw [hp]; decide), if_pos hp, parsePng, hj]
  simp only [parseJpgAt_zero, C51_jpeg_header_partial ps hps f hf rest]
  rfl

/-- **C74, anything else.** Any other ending is refused, and so is an argument of another type. -/
theorem C74_refused {env : ImageEnv} {image : ImageArg} {ext : ExtArg} {name : Option Str} :
    (∀ {d n e}, Source env image name d n → Ending image ext e → ¬ Writes e c!"jpg" → ¬ Writes e c!"jpeg" → ¬ Writes e c!"png" →
      (imageInit env image ext name).result = .error .notImplemented) ∧
    (image = .other → (imageInit env image ext name).result = .error .typeError) ∧
    (∀ f, image = .file f → name = none ∨ ext = .none → (imageInit env image ext name).result = .error .typeError) ∧
    (∀ d n, Source env image name d n → ext = .other → (imageInit env image ext name).result = .error .typeError) := by
  refine ⟨?_, ?_, ?_, ?_⟩
  · intro d n e hs he h1 h2 h3
    obtain ⟨e', h4, h5⟩ := init_result hs he
    have a1 : normExt e' ≠ c!"jpg" := by rw [h4]; exact fun h => h1 ((normExt_iff (by decide) (by decide) e).1 h)
    have a2 : normExt e' ≠ c!"jpeg" := by rw [h4]; exact fun h => h2 ((normExt_iff (by decide) (by decide) e).1 h)
    have a3 : normExt e' ≠ c!"png" := by rw [h4]; exact fun h => h3 ((normExt_iff (by decide) (by decide) e).1 h)
    rw [h5, parseByExt, if_neg (by simp [a1, a2]), if_neg a3]
    rfl
  · rintro rfl; rfl
  · rintro f rfl (rfl | rfl)
    · cases ext <;> rfl
    · cases name <;> rfl
  · intro d n hs hx
    subst hx
    cases image with
    | str s => obtain ⟨h1, rfl⟩ := hs; simp [imageInit, imageSource, h1, parseByExt]; rfl
    | path s => obtain ⟨h1, rfl⟩ := hs; simp [imageInit, imageSource, h1, parseByExt]; rfl
    | file f => obtain ⟨rfl, rfl⟩ := hs; simp [imageInit, imageSource, parseByExt]; rfl
    | other => exact hs.elim

/-- a small file: the start of an image and its frame header -/
def exJpeg : Bytes := (Part.alone 0xD8).bytes ++ sampleFrame.bytes

/-- another image, 5 wide and 7 high -/
def exFrame : Frame := ⟨0xC0, 0, 11, 8, 0, 7, 0, 5, 1, [1, 0x11, 0]⟩

/-- the files of the examples -/
def exFiles : ImageEnv := ⟨fun s => if s = c!"/a.b/photo.JPEG" ∨ s = c!".jpg" ∨ s = c!"jpg" then some exJpeg else none, fun _ => .error .valueError⟩

theorem exJpeg_holds : HoldsJpeg exJpeg sampleFrame :=
  ⟨by unfold Frame.Ok; decide, [.alone 0xD8], [], by simp [Part.Ok, isStandAlone], by simp [exJpeg]⟩

/-- the ending in capital letters, as a string and as a path -/
example : (imageInit exFiles (.path c!"/a.b/photo.JPEG") .none none).result =
    .ok (c!"/a.b/photo.JPEG", 16, 8, imageObj sampleFrame exJpeg) :=
  C74_jpg_partial (env := exFiles) (image := .path c!"/a.b/photo.JPEG") (ext := .none) (name := none) (d := exJpeg) (e := c!"JPEG")
    (show exFiles.files c!"/a.b/photo.JPEG" = some exJpeg ∧ c!"/a.b/photo.JPEG" = c!"/a.b/photo.JPEG" from ⟨by decide, rfl⟩)
    (show HasEnding c!"/a.b/photo.JPEG" c!"JPEG" from ⟨by decide, by decide, by decide, c!"/a.b/", c!"photo", .inr ⟨c!"/a.b", rfl⟩, by decide, by decide, rfl⟩)
    (.inr ⟨[], [], c!"JPEG", [], rfl, .inl rfl, by decide, by decide, by decide⟩) exJpeg_holds

/-- a file with an ending that is not known is opened, refused and closed -/
example : let o := imageInit exFiles (.str c!"/a.b/photo.JPEG") (.str c!"gif") none
    o.opened = [c!"/a.b/photo.JPEG"] ∧ o.closed = [c!"/a.b/photo.JPEG"] ∧ o.result = .error .notImplemented := ⟨by decide, by decide, rfl⟩

/-- what Pillow makes of a file named png is what is embedded -/
example : (imageInit ⟨fun _ => some [1, 2], fun _ => .ok exJpeg⟩ (.str c!"a.b/c.PnG") .none none).result =
    .ok (c!"a.b/c.PnG", 16, 8, imageObj sampleFrame exJpeg) :=
  C74_png_partial (image := .str c!"a.b/c.PnG") (ext := .none) (name := none) (d := [1, 2]) (e := c!"PnG") ⟨rfl, rfl⟩
    (show HasEnding c!"a.b/c.PnG" c!"PnG" from ⟨by decide, by decide, by decide, c!"a.b/", c!"c", .inr ⟨c!"a.b", rfl⟩, by decide, by decide, rfl⟩)
    ⟨[], [], c!"PnG", [], rfl, .inl rfl, by decide, by decide, by decide⟩ rfl exJpeg_holds

/-- **C74, no ending.** A path whose last component has no dot is refused, whatever dots there are before it. -/
theorem C74_no_ending {env : ImageEnv} {dir stem : Str} {name : Option Str} {d : Bytes} (hd : dir = [] ∨ ∃ a, dir = a ++ ['/']) (hs : '/' ∉ stem) (hdot : '.' ∉ stem)
    (hf : env.files (dir ++ stem) = some d) : (imageInit env (.path (dir ++ stem)) .none name).result = .error .notImplemented := by
  have hname : afterLast '/' (dir ++ stem) = stem := by
    rcases hd with rfl | ⟨a, rfl⟩
    · exact afterLast_none (by simpa using hs)
    · have := afterLast_free (a := a) hs
      simpa using this
  have hx : pathSuffix (dir ++ stem) = [] := by
    unfold pathSuffix
    simp only [hname]
    rw [if_neg (fun h => hdot h.1)]
  simp only [imageInit, imageSource, hf, hx]
  rfl

example (env : ImageEnv) (d : Bytes) (h : env.files c!"scans.jpg/readme" = some d) : (imageInit env (.path c!"scans.jpg/readme") .none none).result = .error .notImplemented :=
  C74_no_ending (dir := c!"scans.jpg/") (stem := c!"readme") (.inr ⟨c!"scans.jpg", rfl⟩) (by decide) (by decide) h

/-- the same name is taken as a string and refused as a path -/
theorem C74_path_false : ∃ (env : ImageEnv) (s : Str) (f : Frame) (d : Bytes), env.files s = some d ∧ HoldsJpeg d f ∧
    (imageInit env (.str s) .none none).result = .ok (s, be16 f.wHi f.wLo, be16 f.hHi f.hLo, imageObj f d) ∧
    (imageInit env (.path s) .none none).result = .error .notImplemented := by
  refine ⟨exFiles, c!".jpg", sampleFrame, exJpeg, by decide, exJpeg_holds, ?_, rfl⟩
  simp only [imageInit, imageSource, show exFiles.files c!".jpg" = some exJpeg by decide]
  have hx : afterLast '.' c!".jpg" = c!"jpg" := by decide
  rw [hx, parseByExt, if_pos (.inl (by decide)), parseJpgAt_zero]
  obtain ⟨hf, ps, rest, hps, e⟩ := exJpeg_holds
  rw [e, C51_jpeg_header_partial ps hps _ hf rest]
  rfl

/-- a file-like object that is not at its beginning is measured where it is and embedded from its beginning: the size is that of another image -/
theorem C74_position_false : ∃ (env : ImageEnv) (f : FileObj) (a b : Frame), HoldsJpeg f.data a ∧ be16 a.wHi a.wLo ≠ be16 b.wHi b.wLo ∧
    ∃ o, (imageInit env (.file f) (.str c!"jpg") (some c!"x")).result = .ok (c!"x", be16 b.wHi b.wLo, be16 b.hHi b.hLo, o) ∧
      o = imageObj b f.data := by
  refine ⟨exFiles, ⟨exJpeg ++ exFrame.bytes, exJpeg.length⟩, sampleFrame, exFrame,
    ⟨by unfold Frame.Ok; decide, [.alone 0xD8], exFrame.bytes, by simp [Part.Ok, isStandAlone], by simp [exJpeg]⟩, by decide, _, ?_, rfl⟩
  simp only [imageInit, imageSource, parseByExt, if_pos (show normExt c!"jpg" = c!"jpg" ∨ normExt c!"jpg" = c!"jpeg" from .inl (by decide))]
  rw [parseJpgAt, List.drop_left' rfl, show jpegScan exFrame.bytes = .ok ⟨8, 7, 5, b!"/DeviceGray"⟩ by decide +kernel]
  rfl

end Verif
