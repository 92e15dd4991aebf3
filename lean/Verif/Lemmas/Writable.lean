import Verif.Lemmas.Stream
import Verif.Lemmas.ReadDoc
import Verif.Spec.Writable
/-! Lemmas for C91: dicts that can be written. -/
namespace Verif
open Spec

/-- the value stands for a PDF object -/
def Sure (o : Obj) : Prop := (meaning o).isSome = true

/-- an entry that can be written -/
def ItemOk (p : Key × Obj) : Prop := ∃ k, p.1 = .str k ∧ nameChars k = true ∧ Sure p.2

theorem items_sure : ∀ (l : List (Key × Obj)), (meaningItems l).isSome = true ↔ ∀ p ∈ l, ItemOk p
  | [] => by simp [meaningItems]
  | (.int i, v) :: l => by
    simp only [meaningItems]
    constructor
    · intro h; cases h
    · intro h; obtain ⟨k, e, -⟩ := h _ List.mem_cons_self; cases e
  | (.str k, v) :: l => by
    have ih := items_sure l
    simp only [meaningItems]
    constructor
    · intro h
      split at h
      · rename_i hk
        cases hv : meaning v with
        | none => simp [hv] at h
        | some q =>
          cases hl : meaningItems l with
          | none => simp [hv, hl] at h
          | some qs =>
            rw [hl] at ih
            intro p hp
            rcases List.mem_cons.1 hp with rfl | hp
            · exact ⟨k, rfl, hk, by simp [Sure, hv]⟩
            · exact ih.1 rfl p hp
      · cases h
    · intro h
      obtain ⟨k', e, hk, hv⟩ := h _ List.mem_cons_self
      cases e
      rw [if_pos hk]
      have h2 := ih.2 fun p hp => h p (List.mem_cons_of_mem _ hp)
      unfold Sure at hv
      obtain ⟨q, hq⟩ := Option.isSome_iff_exists.1 hv
      obtain ⟨qs, hqs⟩ := Option.isSome_iff_exists.1 h2
      simp only at hq
      simp [hq, hqs]

theorem list_sure : ∀ (l : List Obj), (meaningList l).isSome = true ↔ ∀ o ∈ l, Sure o
  | [] => by simp [meaningList]
  | o :: l => by
    have ih := list_sure l
    rw [List.forall_mem_cons, ← ih]
    simp only [meaningList, Sure]
    cases meaning o <;> cases meaningList l <;> simp

theorem Sure.seq {l : List Obj} : Sure (.seq l) ↔ ∀ o ∈ l, Sure o := by
  rw [← list_sure]
  unfold Sure
  simp only [meaning]
  cases meaningList l <;> simp

theorem Sure.dict {d : List (Key × Obj)} : Sure (.dict d) ↔ (∀ p ∈ d, ItemOk p) ∧ ∀ p ∈ d, p.1 ≠ kStream := by
  unfold Sure
  simp only [meaning]
  split
  · rename_i h
    simp only [List.any_eq_true, decide_eq_true_eq] at h
    obtain ⟨p, hp, e⟩ := h
    simp only [Option.isSome_none, Bool.false_eq_true, false_iff, not_and]
    intro _ h
    exact h p hp e
  · rename_i h
    simp only [List.any_eq_true, decide_eq_true_eq] at h
    have h2 : ∀ p ∈ d, p.1 ≠ kStream := fun p hp e => h ⟨p, hp, e⟩
    rw [← items_sure]
    cases meaningItems d <;> simp only [Option.isSome_none, Option.isSome_some, Bool.false_eq_true, false_and, true_and, true_iff]
    exact h2

theorem Sure.str {s : Str} (h : stringChars s = true) : Sure (.str s) := by
  unfold Sure
  simp only [meaning]
  rw [if_pos h]
  rfl

theorem Sure.name {s : Str} (h : nameChars s = true) : Sure (nameBytes s) := by
  have : (s.map latin1).all (fun c => isRegular c && c != 35) = true := by
    rw [List.all_map]
    simp only [nameChars, List.all_eq_true, Bool.and_eq_true, decide_eq_true_eq, Function.comp_apply] at h ⊢
    intro c hc
    obtain ⟨⟨h1, h2⟩, h3⟩ := h c hc
    refine ⟨h2, ?_⟩
    simp only [bne_iff_ne, ne_eq] at h3 ⊢
    intro e
    apply h3
    have hn : c.toNat = 35 := by
      have := congrArg UInt8.toNat e
      rw [latin1_toNat h1] at this
      exact this
    exact Char.ext (UInt32.toNat_inj.1 hn)
  unfold Sure nameBytes
  show (meaning (.bytes (47 :: s.map latin1))).isSome = true
  simp only [meaning, meaningBytes]
  rw [if_pos this]
  rfl

/-- a dict that can be written -/
structure Fine (d : List (Key × Obj)) : Prop where
  items : ∀ p ∈ d, p.1 ≠ kStream → ItemOk p
  stream : ∀ st, dget kStream d = some st → streamParts st = true
  filter : ∀ f, dget kFilter d = some f → f = .bytes b!"/FlateDecode" ∨ dget kSkip d = some (.bool true)

theorem fine_iff (d : List (Key × Obj)) : dictWritable d = true ↔ Fine d := by
  have h1 : (meaningItems (d.filter fun p => p.1 ≠ .str c!"__stream__")).isSome = true ↔ ∀ p ∈ d, p.1 ≠ kStream → ItemOk p := by
    rw [items_sure]
    simp only [List.mem_filter, decide_eq_true_eq, and_imp, ne_eq]
    rfl
  have h2 : (dget (.str c!"__stream__") d).all streamParts = true ↔ ∀ st, dget kStream d = some st → streamParts st = true := by
    show (dget kStream d).all streamParts = true ↔ _
    cases dget kStream d <;> simp
  have e1 : ∀ f : Obj, isFlate f = true ↔ f = .bytes b!"/FlateDecode" := by
    intro f
    cases f <;> simp [isFlate]
  have e2 : ∀ o : Option Obj, flagSet o = true ↔ o = some (.bool true) := by
    intro o
    cases o with
    | none => simp [flagSet]
    | some o => cases o <;> simp [flagSet]
  have h3 : filterKnown d = true ↔ ∀ f, dget kFilter d = some f → f = .bytes b!"/FlateDecode" ∨ dget kSkip d = some (.bool true) := by
    unfold filterKnown
    show (dget kFilter d).all (fun f => isFlate f || flagSet (dget kSkip d)) = true ↔ _
    cases hf : dget kFilter d with
    | none => simp
    | some f => simp only [Option.all_some, Bool.or_eq_true, e1, e2, Option.some.injEq, forall_eq']
  unfold dictWritable
  rw [Bool.and_eq_true, Bool.and_eq_true, h1, h2, h3]
  exact ⟨fun h => ⟨h.1.1, h.1.2, h.2⟩, fun h => ⟨⟨h.1, h.2⟩, h.3⟩⟩

/-! ### It is written and read -/

theorem streamParts_ok {st : Obj} (h : streamParts st = true) : ∃ raw, streamStr st = .ok raw := by
  cases st with
  | bytes b => exact ⟨b, rfl⟩
  | dict d =>
    simp only [streamParts] at h
    show ∃ raw, joinValues d = .ok raw
    induction d with
    | nil => exact ⟨[], rfl⟩
    | cons p d ih =>
      rw [List.all_cons, Bool.and_eq_true] at h
      obtain ⟨r, hr⟩ := ih h.2
      obtain ⟨k, v⟩ := p
      cases v with
      | bytes b => exact ⟨b ++ r, by simp only [joinValues, hr]⟩
      | _ => cases h.1
  | _ => cases h

theorem dictLoop_all {acc : Bytes} {es : List Entry} (h : ∀ e ∈ es, e.Good) : ∃ b, (dictLoop acc es).1 = .ok (some b) := by
  induction es generalizing acc with
  | nil => exact ⟨_, rfl⟩
  | cons e es ih =>
    obtain ⟨kb, c, cs, hk, hr⟩ := h e (by simp)
    rw [dictLoop_cons_good hk hr]
    exact ih fun e he => h e (by simp [he])

theorem ItemOk.good (flate : Bytes → Bytes) {p : Key × Obj} (h : ItemOk p) :
    Entry.Good ⟨p.1, p.2, (parseObj flate p.2).1, (parseObj flate p.2).2⟩ := by
  obtain ⟨k, e, hk, hv⟩ := h
  obtain ⟨q, hq⟩ := Option.isSome_iff_exists.1 hv
  obtain ⟨c, cs, t, hr, -, -⟩ := obj_ok flate p.2 q hq
  have hl : k.all isLatin = true := by
    simp only [nameChars, List.all_eq_true, Bool.and_eq_true, decide_eq_true_eq] at hk
    simp only [List.all_eq_true, isLatin, decide_eq_true_eq]
    exact fun c hc => (hk c hc).1.1
  refine ⟨b!"/" ++ k.map latin1, c, cs, ?_, hr⟩
  simp only [e, encodeKey, encodeLatin_ok hl]

theorem Fine.parses (flate : Bytes → Bytes) {d : List (Key × Obj)} (h : Fine d) : ∃ b, (parseObj flate (.dict d)).1 = .ok (some b) := by
  simp only [parseObj]
  cases hs : dget kStream d with
  | none =>
    simp only [parseDict]
    refine dictLoop_all fun e he => ?_
    rw [parseVals_eq] at he
    obtain ⟨p, hp, rfl⟩ := List.mem_map.1 he
    refine ItemOk.good flate (h.items p hp ?_)
    intro e
    rw [dget_eq_none] at hs
    exact hs (e ▸ List.mem_map_of_mem hp)
  | some st =>
    obtain ⟨raw, hraw⟩ := streamParts_ok (h.stream st hs)
    have henc : ∃ stream, encodeMaybe flate (skipFlag (Entry.delKey kStream (parseVals flate d)))
        (Entry.find kFilter (Entry.delKey kSkip (Entry.delKey kStream (parseVals flate d)))) raw = .ok stream := by
      rw [delKey_parseVals, delKey_parseVals, find_parseVals, dget_ddel_ne (by simp [kSkip, kFilter]), dget_ddel_ne (by simp [kStream, kFilter])]
      unfold encodeMaybe
      cases hf : dget kFilter d with
      | none => exact ⟨raw, rfl⟩
      | some f =>
        simp only
        rcases h.filter f hf with rfl | hk
        · split
          · exact ⟨flate raw, rfl⟩
          · exact ⟨raw, rfl⟩
        · rw [if_neg]
          · exact ⟨raw, rfl⟩
          · have := (skipFlag_spec flate d).2 (by rw [hk]; rfl)
            rw [delKey_parseVals] at this
            rw [this]; simp
    obtain ⟨stream, hstream⟩ := henc
    obtain ⟨dd, hdd⟩ := dictLoop_all (acc := b!"<<") (es := streamEntries stream (parseVals flate d)) (by
      intro e he
      rcases mem_setKey he with rfl | he
      · cases hn : natStr stream.length with
        | nil => exact absurd hn (natStr_ne_nil _)
        | cons c cs => exact ⟨b!"/Length", latin1 c, cs.map latin1, rfl, by simp [lengthEntry, hn]⟩
      · have he1 := (List.mem_filter.1 he).1
        have he2 := List.mem_filter.1 he1
        rw [parseVals_eq] at he2
        obtain ⟨p, hp, rfl⟩ := List.mem_map.1 he2.1
        exact ItemOk.good flate (h.items p hp (by simpa using he2.2)))
    simp only
    rw [parseStream_intro hraw hstream hdd]
    exact ⟨_, rfl⟩

theorem Fine.readable {d : List (Key × Obj)} (h : Fine d) : readable (.dict d) = true := by
  unfold Spec.readable
  show (match dget kStream d with
    | some _ => (meaningItems (d.filter fun p => p.1 ≠ .str c!"__stream__" ∧ p.1 ≠ .str c!"__skip_filter__")).isSome
    | none => (meaning (.dict d)).isSome) = true
  cases hs : dget kStream d with
  | some st =>
    simp only
    rw [items_sure]
    intro p hp
    have := List.mem_filter.1 hp
    simp only [decide_eq_true_eq] at this
    exact h.items p this.1 this.2.1
  | none =>
    simp only
    have hne : ∀ p ∈ d, p.1 ≠ kStream := by
      intro p hp e
      rw [dget_eq_none] at hs
      exact hs (e ▸ List.mem_map_of_mem hp)
    exact Sure.dict.2 ⟨fun p hp => h.items p hp (hne p hp), hne⟩

end Verif
