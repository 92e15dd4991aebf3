import Verif.Spec.Styles
/-! Lemmas about styles: dicts and layers. -/
namespace Verif
open Spec

variable {V : Type}

theorem find_dget (d : List (Str × V)) (k : Str) : (d.find? fun p => decide (p.1 = k)).map (·.2) = dget k d := by
  induction d with
  | nil => rfl
  | cons p d ih =>
    simp only [List.find?_cons, dget]
    by_cases h : p.1 = k
    · simp [h]
    · simp [h, ih]

theorem says_nil (k : Str) : says ([] : List (List (Str × V))) k = none := rfl

theorem says_cons (d : List (Str × V)) (L : List (List (Str × V))) (k : Str) : says (d :: L) k = (dget k d).or (says L k) := by
  simp only [says, List.findSome?_cons, find_dget]
  cases dget k d <;> rfl

theorem says_append (L M : List (List (Str × V))) (k : Str) : says (L ++ M) k = (says L k).or (says M k) := by
  induction L with
  | nil => rfl
  | cons d L ih => rw [List.cons_append, says_cons, says_cons, ih, Option.or_assoc]

theorem dget_filter_key (q : Str → Bool) (d : List (Str × V)) (k : Str) :
    dget k (d.filter fun p => q p.1) = if q k then dget k d else none := by
  induction d with
  | nil => simp [dget]
  | cons p d ih =>
    rw [List.filter_cons]
    by_cases hq : q p.1
    · rw [if_pos hq]
      simp only [dget, ih]
      by_cases h : p.1 = k
      · subst h; simp [hq]
      · simp [h]
    · rw [if_neg hq, ih]
      by_cases h : p.1 = k
      · subst h; simp [hq]
      · simp [dget, h]

theorem says_hide (ks : List Str) (L : List (List (Str × V))) (k : Str) : says (hide ks L) k = if k ∈ ks then none else says L k := by
  induction L with
  | nil => simp [hide, says_nil]
  | cons d L ih =>
    have e : hide ks (d :: L) = (d.filter fun p => decide (p.1 ∉ ks)) :: hide ks L := rfl
    rw [e, says_cons, says_cons, ih, dget_filter_key (fun s => decide (s ∉ ks)) d k]
    by_cases h : k ∈ ks <;> simp [h]

theorem dget_reverse {d : List (Str × V)} (h : IsDict d) (k : Str) : dget k d.reverse = dget k d := by
  cases e : dget k d with
  | none =>
    rw [dget_eq_none] at e ⊢
    simpa using e
  | some v =>
    apply dget_of_mem
    · rw [List.map_reverse]
      exact List.pairwise_reverse.2 (h.imp fun h => Ne.symm h)
    · exact List.mem_reverse.2 (dget_mem e)

theorem dget_update {e : List (Str × V)} (h : IsDict e) (d : List (Str × V)) (k : Str) :
    dget k (dupdate d e) = (dget k e).or (dget k d) := by
  rw [dget_dupdate, dget_reverse h]

theorem isDict_update {d : List (Str × V)} (h : IsDict d) (e : List (Str × V)) : IsDict (dupdate d e) := by
  unfold dupdate
  induction e generalizing d with
  | nil => exact h
  | cons p e ih => exact ih (dset_nodup h)

theorem isDict_filter {d : List (Str × V)} (h : IsDict d) (q : Str × V → Bool) : IsDict (d.filter q) :=
  List.Nodup.sublist (List.Sublist.map _ List.filter_sublist) h

theorem isDict_nil : IsDict ([] : List (Str × V)) := List.nodup_nil

/-- a dict and the layers it follows -/
structure KeepsKey (d : List (Str × V)) (L : List (List (Str × V))) : Prop where
  dict : IsDict d
  follows : Follows d L

theorem KeepsKey.update {d : List (Str × V)} {L : List (List (Str × V))} (h : KeepsKey d L) {e : List (Str × V)} (he : IsDict e) :
    KeepsKey (dupdate d e) (e :: L) :=
  ⟨isDict_update h.dict e, fun k => by rw [dget_update he, says_cons, h.follows k]⟩

theorem keeps_one {d : List (Str × V)} (h : IsDict d) : KeepsKey d [d] := ⟨h, fun k => by rw [says_cons, says_nil]; simp⟩

/-- a dict over defaults -/
theorem KeepsKey.over {d : List (Str × V)} {L : List (List (Str × V))} (h : KeepsKey d L) {b : List (Str × V)} (hb : IsDict b) :
    KeepsKey (dupdate b d) (L ++ [b]) :=
  ⟨isDict_update hb d, fun k => by rw [dget_update h.dict, says_append, says_cons, says_nil, h.follows k]; simp⟩

theorem KeepsKey.same {d : List (Str × V)} {L M : List (List (Str × V))} (h : KeepsKey d L) (e : ∀ k, says L k = says M k) : KeepsKey d M :=
  ⟨h.dict, fun k => (h.follows k).trans (e k)⟩

theorem dget_dpop (k k' : Str) (v : V) (d : List (Str × V)) : dget k (dpop k' v d).2 = if k = k' then none else dget k d := by
  have := dget_filter_key (fun s => decide (s ≠ k')) d k
  simp only [dpop]
  rw [this]
  by_cases h : k = k' <;> simp [h]

theorem isDict_pop {d : List (Str × V)} (h : IsDict d) (k : Str) (v : V) : IsDict (dpop k v d).2 := isDict_filter h _

/-- the formats are dicts -/
def FormatsDict (X : StyleCtx V) : Prop := ∀ fs, X.formats = some fs → ∀ p ∈ fs, IsDict p.2

theorem processStyle_ok {X : StyleCtx V} {st : StyleArg V} {e : List (Str × V)} (h : processStyle X st = .ok e) : e = given X st := by
  cases st with
  | none => cases h; rfl
  | dict d => cases h; rfl
  | other => cases h
  | name s =>
    simp only [processStyle] at h
    simp only [given]
    cases hf : X.formats with
    | none => rw [hf] at h; cases h; rfl
    | some fs =>
      rw [hf] at h
      simp only at h
      simp only [Option.getD_some]
      have e2 : (fs.find? fun p => decide (p.1 = s)).map (·.2) = dget s fs := by
        clear h hf
        induction fs with
        | nil => rfl
        | cons p fs ih =>
          simp only [List.find?_cons, dget]
          by_cases hp : p.1 = s
          · simp [hp]
          · simp [hp, ih]
      rw [e2]
      cases hg : dget s fs with
      | none => rw [hg] at h; cases h
      | some d => rw [hg] at h; cases h; rfl

theorem given_dict {X : StyleCtx V} (hX : FormatsDict X) {st : StyleArg V} (h : ArgDict st) : IsDict (given X st) := by
  cases st with
  | none => exact isDict_nil
  | dict d => exact h
  | other => exact isDict_nil
  | name s =>
    simp only [given]
    cases hf : X.formats with
    | none => exact isDict_nil
    | some fs =>
      simp only [Option.getD_some]
      cases hg : fs.find? fun p => decide (p.1 = s) with
      | none => exact isDict_nil
      | some p => exact hX fs hf p (List.mem_of_find?_eq_some hg)

/-- the attributes of style strings -/
def textKeys : List Str := [c!"b", c!"i", c!"u", c!"f", c!"c", c!"bg", c!"s", c!"r"]

theorem styleSet_dset (k : Str) (v : StyleVal) (d : Style) : styleSet k v d = dset k v d := by
  induction d with
  | nil => rfl
  | cons p d ih => obtain ⟨a, b⟩ := p; simp only [styleSet, dset, ih]

/-- a style that a style string can make -/
def StrStyle (d : Style) : Prop := IsDict d ∧ ∀ p ∈ d, p.1 ∈ textKeys

theorem StrStyle.set {d : Style} (h : StrStyle d) {k : Str} (hk : k ∈ textKeys) (v : StyleVal) : StrStyle (styleSet k v d) := by
  rw [styleSet_dset]
  refine ⟨dset_nodup h.1, ?_⟩
  intro p hp
  have : p.1 ∈ (dset k v d).map Prod.fst := List.mem_map_of_mem hp
  rw [dset_keys] at this
  split at this
  · obtain ⟨q, hq, e⟩ := List.mem_map.1 this
    exact e ▸ h.2 q hq
  · rcases List.mem_append.1 this with h1 | h1
    · obtain ⟨q, hq, e⟩ := List.mem_map.1 h1
      exact e ▸ h.2 q hq
    · rw [List.mem_singleton] at h1
      exact h1 ▸ hk

theorem isBoolAttr_key {a : Str} (h : isBoolAttr a = true) : a ∈ textKeys := by
  simp only [isBoolAttr, Bool.or_eq_true, decide_eq_true_eq] at h
  rcases h with (h | h) | h <;> simp [textKeys, h]

theorem styleParam_strStyle {env : StyleEnv} {raw value : Str} {d d' : Style} (h : StrStyle d) (e : styleParam env raw value d = .ok d') :
    StrStyle d' := by
  simp only [styleParam] at e
  repeat' split at e
  all_goals first
    | (cases e; done)
    | (cases e; exact h.set (by decide) _)

theorem styleElem_strStyle {env : StyleEnv} {s : Str} {d d' : Style} (h : StrStyle d) (e : styleElem env s d = .ok d') : StrStyle d' := by
  simp only [styleElem] at e
  split at e
  · simp only [styleFlag] at e
    split at e
    · cases e; exact h
    · split at e
      · rename_i hb
        cases e
        exact h.set (isBoolAttr_key hb) _
      · cases e
  · simp only [styleAttr] at e
    split at e
    · rename_i hb
      split at e
      · exact styleParam_strStyle (h.set (isBoolAttr_key hb) _) e
      · split at e
        · exact styleParam_strStyle (h.set (isBoolAttr_key hb) _) e
        · cases e
    · exact styleParam_strStyle h e
  · cases e

theorem parseStyleStr_strStyle {env : StyleEnv} {s : Str} {d : Style} (e : parseStyleStr env s = .ok d) : StrStyle d := by
  have : ∀ l (d0 : Style), StrStyle d0 → styleLoop env l d0 = .ok d → StrStyle d := by
    intro l
    induction l with
    | nil => intro d0 h e; cases e; exact h
    | cons s l ih =>
      intro d0 h e
      simp only [styleLoop] at e
      cases h1 : styleElem env s d0 with
      | error x => rw [h1] at e; cases e
      | ok d1 => rw [h1] at e; exact ih d1 (styleElem_strStyle h h1) e
  exact this _ [] ⟨List.nodup_nil, by simp⟩ e

theorem written_strStyle (X : StyleCtx V) (dot : Str) : IsDict (written X dot) ∧ ∀ k, k ∉ textKeys → dget k (written X dot) = none := by
  simp only [written]
  cases h : parseStyleStr X.env dot with
  | error e => exact ⟨isDict_nil, fun k _ => rfl⟩
  | ok d =>
    obtain ⟨h1, h2⟩ := parseStyleStr_strStyle h
    simp only
    refine ⟨?_, ?_⟩
    · simp only [IsDict, List.map_map]
      exact h1
    · intro k hk
      rw [dget_eq_none]
      intro hm
      simp only [List.map_map, List.mem_map] at hm
      obtain ⟨p, hp, e⟩ := hm
      exact hk (e ▸ h2 p hp)

theorem dotStyle_ok {X : StyleCtx V} {dot : Str} {d : List (Str × V)} (h : dotStyle X (some dot) = .ok d) : d = written X dot := by
  simp only [dotStyle] at h
  simp only [written]
  cases h1 : parseStyleStr X.env dot with
  | error e => rw [h1] at h; cases h
  | ok s => rw [h1] at h; cases h; rfl

end Verif
