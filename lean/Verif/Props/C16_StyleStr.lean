import Verif.Model.StyleStr
import Verif.Spec.Style
import Verif.Lemmas.Range
/-! C16: style strings. -/
namespace Verif
open Spec

/-- no separator inside -/
def Plain (s : Str) : Prop := ';' ∉ s ∧ ':' ∉ s

/-- a well-formed attribute sets `key` to `v` (`none` for the empty element). The `bool` form is left
out: see `C16_bool_form_rejected`. -/
inductive ItemSets (env : StyleEnv) : StyleItem → Option (Str × StyleVal) → Prop
  | empty : ItemSets env .empty none
  | flag {pre k post} : Blank pre → Blank post → k = c!"b" ∨ k = c!"i" ∨ k = c!"u" →
      ItemSets env (.flag pre k post) (some (k, .flag true))
  | font {pre post val} : Blank pre → Blank post → Plain val → env.fontOk (strip val) = true →
      ItemSets env (.font pre post val) (some (c!"f", .font (strip val)))
  | fg {pre post val c} : Blank pre → Blank post → Plain val →
      parseColor env.pf (.str (strip val)) = .ok c →
      ItemSets env (.fg pre post val) (some (c!"c", .color ⟨c, false⟩))
  | bg {pre post val c} : Blank pre → Blank post → Plain val →
      parseColor env.pf (.str (strip val)) = .ok c →
      ItemSets env (.bg pre post val) (some (c!"bg", .color ⟨c, false⟩))
  | size {val v} : Plain val → env.pf (strip val) = some v →
      ItemSets env (.size val) (some (c!"s", .num v))
  | rise {val v} : Plain val → env.pf (strip val) = some v →
      ItemSets env (.rise val) (some (c!"r", .num v))

/-- the value of the last element that sets `k` -/
def lastValue (k : Str) (sets : List (Option (Str × StyleVal))) : Option StyleVal :=
  (sets.reverse.findSome? fun s => s.bind fun p => if p.1 = k then some p.2 else none)

theorem lookup_styleSet (k k' : Str) (v : StyleVal) (st : Style) :
    (styleSet k v st).lookup k' = if k' = k then some v else st.lookup k' := by
  induction st with
  | nil =>
    simp only [styleSet, List.lookup]
    by_cases h : k' = k
    · subst h; simp
    · simp [h, beq_eq_false_iff_ne.2 h]
  | cons p st ih =>
    obtain ⟨a, b⟩ := p
    simp only [styleSet]
    split
    · rename_i hak
      subst hak
      by_cases h : k' = a
      · subst h; simp
      · simp [List.lookup, h, beq_eq_false_iff_ne.2 h]
    · rename_i hak
      by_cases h : k' = a
      · subst h; simp [List.lookup, hak]
      · simp only [List.lookup, beq_eq_false_iff_ne.2 h, ih]

theorem Plain.pad {pre k post : Str} (h1 : Blank pre) (h2 : Blank post) (hk : Plain k) :
    Plain (pre ++ k ++ post) := by
  constructor
  · simp [blank_free h1 (sep := ';') (by simp), blank_free h2 (sep := ';') (by simp), hk.1]
  · simp [blank_free h1 (sep := ':') (by simp), blank_free h2 (sep := ':') (by simp), hk.2]

theorem strip_pad_id {pre k post : Str} (h1 : Blank pre) (h2 : Blank post)
    (hk : ∀ c ∈ k, isSpace c = false) : strip (pre ++ k ++ post) = k := by
  rw [strip_pad h1 h2, strip_id hk]

theorem split_two {a b : Str} (ha : Plain a) (hb : Plain b) :
    splitOn ':' (joinWith ':' [a, b]) = [a, b] := by
  apply splitOn_joinWith (by simp)
  intro s hs
  simp only [List.mem_cons, List.not_mem_nil, or_false] at hs
  rcases hs with rfl | rfl
  · exact ha.2
  · exact hb.2

theorem joinTwo_free {a b : Str} (ha : Plain a) (hb : Plain b) : ';' ∉ joinWith ':' [a, b] := by
  simp [joinWith, ha.1, hb.1]

theorem item_free {env : StyleEnv} {it : StyleItem} {r} (h : ItemSets env it r) : ';' ∉ it.text := by
  cases h with
  | empty => simp [StyleItem.text]
  | flag h1 h2 hk =>
    refine (Plain.pad h1 h2 ?_).1
    rcases hk with rfl | rfl | rfl <;> simp [Plain]
  | font h1 h2 h3 _ => exact joinTwo_free (Plain.pad h1 h2 (by simp [Plain])) h3
  | fg h1 h2 h3 _ => exact joinTwo_free (Plain.pad h1 h2 (by simp [Plain])) h3
  | bg h1 h2 h3 _ => exact joinTwo_free (Plain.pad h1 h2 (by simp [Plain])) h3
  | size h3 _ => exact joinTwo_free (by simp [Plain]) h3
  | rise h3 _ => exact joinTwo_free (by simp [Plain]) h3

/-- the effect of one element -/
def applySet (r : Option (Str × StyleVal)) (st : Style) : Style :=
  match r with
  | none => st
  | some p => styleSet p.1 p.2 st

theorem item_sets {env : StyleEnv} {it : StyleItem} {r} (h : ItemSets env it r) (st : Style) :
    styleElem env it.text st = .ok (applySet r st) := by
  unfold applySet
  cases h with
  | empty => rfl
  | @flag pre k post h1 h2 hk =>
    have hp : Plain k := by rcases hk with rfl | rfl | rfl <;> simp [Plain]
    have hs : strip (pre ++ k ++ post) = k := by
      apply strip_pad_id h1 h2
      rcases hk with rfl | rfl | rfl <;> decide
    have hne : pre ++ k ++ post ≠ [] := by
      rcases hk with rfl | rfl | rfl <;> simp
    have hb : isBoolAttr k = true := by rcases hk with rfl | rfl | rfl <;> decide
    simp only [styleElem, StyleItem.text, splitOn_free (Plain.pad h1 h2 hp).2, styleFlag]
    rw [if_neg hne, hs, if_pos hb]
  | @font pre post val h1 h2 h3 h4 =>
    simp only [styleElem, StyleItem.text, split_two (Plain.pad (k := c!"f") h1 h2 (by simp [Plain])) h3, styleAttr,
      strip_pad_id h1 h2 (k := c!"f") (by decide), styleParam]
    rw [if_neg (by decide), if_pos trivial, if_pos h4]
  | @fg pre post val c h1 h2 h3 h4 =>
    simp only [styleElem, StyleItem.text, split_two (Plain.pad (k := c!"c") h1 h2 (by simp [Plain])) h3, styleAttr,
      strip_pad_id h1 h2 (k := c!"c") (by decide), styleParam]
    rw [if_neg (by decide), if_neg (by decide), if_pos trivial, h4]
  | @bg pre post val c h1 h2 h3 h4 =>
    simp only [styleElem, StyleItem.text, split_two (Plain.pad (k := c!"bg") h1 h2 (by simp [Plain])) h3, styleAttr,
      strip_pad_id h1 h2 (k := c!"bg") (by decide), styleParam]
    rw [if_neg (by decide), if_neg (by decide), if_neg (by decide), if_pos trivial, h4]
  | @size val v h3 h4 =>
    have hs : strip c!"s" = c!"s" := by rfl
    simp only [styleElem, StyleItem.text, split_two (a := c!"s") (by simp [Plain]) h3, styleAttr,
      styleParam, hs]
    rw [if_neg (by decide), if_neg (by decide), if_neg (by decide), if_neg (by decide), if_pos trivial, h4]
  | @rise val v h3 h4 =>
    have hs : strip c!"r" = c!"r" := by rfl
    simp only [styleElem, StyleItem.text, split_two (a := c!"r") (by simp [Plain]) h3, styleAttr,
      styleParam, hs]
    rw [if_neg (by decide), if_neg (by decide), if_neg (by decide), if_neg (by decide),
      if_neg (by decide), if_pos trivial, h4]

/-- C16, partial: a semicolon-separated list of well-formed attributes gives exactly the mapping in
which each attribute has the value of its last occurrence. Missing: the `b:1`/`b:0` forms, which the
code rejects (`C16_bool_form_rejected`). -/
theorem C16_style_string_partial (env : StyleEnv) (items : List (StyleItem × Option (Str × StyleVal)))
    (hne : items ≠ []) (hok : ∀ p ∈ items, ItemSets env p.1 p.2) :
    ∃ st, parseStyleStr env (joinWith ';' (items.map fun p => p.1.text)) = .ok st ∧
      ∀ k, st.lookup k = lastValue k (items.map Prod.snd) := by
  rw [parseStyleStr, splitOn_joinWith (by simpa using hne) (by
    intro s hs
    obtain ⟨p, hp, rfl⟩ := List.mem_map.1 hs
    exact item_free (hok p hp))]
  have gen : ∀ (st0 : Style) (l : List (StyleItem × Option (Str × StyleVal))),
      (∀ p ∈ l, ItemSets env p.1 p.2) →
      ∃ st, styleLoop env (l.map fun p => p.1.text) st0 = .ok st ∧
        ∀ k, st.lookup k = (lastValue k (l.map Prod.snd)).or (st0.lookup k) := by
    intro st0 l
    induction l generalizing st0 with
    | nil => intro _; exact ⟨st0, rfl, by simp [lastValue]⟩
    | cons p l ih =>
      intro h
      obtain ⟨st, h1, h2⟩ := ih (applySet p.2 st0) fun q hq => h q (by simp [hq])
      refine ⟨st, ?_, ?_⟩
      · simp only [List.map_cons, styleLoop, item_sets (h p (by simp)), h1]
      · intro k
        rw [h2 k]
        simp only [lastValue, List.map_cons, List.reverse_cons, List.findSome?_append]
        rw [Option.or_assoc]
        congr 1
        cases hp : p.2 with
        | none => simp [applySet]
        | some kv =>
          simp only [applySet, lookup_styleSet, List.findSome?_cons, List.findSome?_nil, Option.bind_some]
          by_cases hk : k = kv.1
          · subst hk; simp
          · have hk' : ¬ kv.1 = k := fun h => hk h.symm
            simp [hk, hk']
  obtain ⟨st, h1, h2⟩ := gen [] items hok
  exact ⟨st, h1, by intro k; rw [h2 k]; simp⟩

theorem styleLoop_error {env : StyleEnv} {s : Str} (hs : ∀ st, ∃ e, styleElem env s st = .error e) :
    ∀ (l : List Str), s ∈ l → ∀ st, ∃ e, styleLoop env l st = .error e := by
  intro l
  induction l with
  | nil => intro h; simp at h
  | cons t l ih =>
    intro h st
    rw [styleLoop]
    rcases List.mem_cons.1 h with rfl | h
    · obtain ⟨e, he⟩ := hs st
      exact ⟨e, by simp [he]⟩
    · cases styleElem env t st with
      | error e => exact ⟨e, rfl⟩
      | ok st' => exact ih h st'

/-- the `b:1` form always falls into the final `else` -/
theorem bool_elem (env : StyleEnv) (pre k post val : Str) (h1 : Blank pre) (h2 : Blank post)
    (hk : k = c!"b" ∨ k = c!"i" ∨ k = c!"u") (hv : Plain val) (st : Style) :
    styleElem env (joinWith ':' [pre ++ k ++ post, val]) st = .error .valueError := by
  have hp : Plain k := by rcases hk with rfl | rfl | rfl <;> simp [Plain]
  have hs : strip (pre ++ k ++ post) = k := by
    apply strip_pad_id h1 h2
    rcases hk with rfl | rfl | rfl <;> decide
  have hb : isBoolAttr k = true := by rcases hk with rfl | rfl | rfl <;> decide
  have hpar : ∀ value st, styleParam env (pre ++ k ++ post) value st = .error .valueError := by
    intro value st
    have hr : ∀ c : Char, c ≠ 'b' → c ≠ 'i' → c ≠ 'u' → pre ++ k ++ post ≠ [c] := by
      intro c hb' hi hu he
      have hsub : ∀ d ∈ k, d = c := by
        intro d hd
        have : d ∈ [c] := by rw [← he]; simp [hd]
        simpa using this
      rcases hk with rfl | rfl | rfl
      · exact hb' (hsub 'b' (by simp)).symm
      · exact hi (hsub 'i' (by simp)).symm
      · exact hu (hsub 'u' (by simp)).symm
    have h' : k ≠ c!"f" ∧ k ≠ c!"c" ∧ k ≠ c!"bg" := by rcases hk with rfl | rfl | rfl <;> decide
    simp only [styleParam, hs]
    rw [if_neg h'.1, if_neg h'.2.1, if_neg h'.2.2, if_neg (hr 's' (by decide) (by decide) (by decide)),
      if_neg (hr 'r' (by decide) (by decide) (by decide))]
  simp only [styleElem, split_two (Plain.pad h1 h2 hp) hv, styleAttr, hs, hb, if_true, hpar]
  split
  · rfl
  · split <;> rfl

/-- C16 is false for the documented bool forms: a style string with an element like `b:1`, `i:0` or
`u:1` is always rejected. -/
theorem C16_bool_form_rejected (env : StyleEnv) (s pre k post val : Str) (v : Bool)
    (h1 : Blank pre) (h2 : Blank post) (hk : k = c!"b" ∨ k = c!"i" ∨ k = c!"u") (hv : Plain val)
    (hs : (StyleItem.bool pre k post val v).text ∈ splitOn ';' s) :
    ∃ e, parseStyleStr env s = .error e :=
  styleLoop_error (fun st => ⟨_, bool_elem env pre k post val h1 h2 hk hv st⟩) _ hs []

/-- a malformed element: more than one colon; without a value, another name than `b`, `i`, `u`; an unknown name; a flag that is neither
0 nor 1; an unknown font; a size or a rise that is not a number. (Malformed colours: `C16_bad_color_type_error`.) -/
inductive BadElem (env : StyleEnv) : Str → Prop
  | colons {e} : 2 < (splitOn ':' e).length → BadElem env e
  | name {e} : ':' ∉ e → e ≠ [] → strip e ∉ [c!"b", c!"i", c!"u"] → BadElem env e
  | unknown {e a b} : splitOn ':' e = [a, b] → strip a ∉ [c!"b", c!"i", c!"u", c!"f", c!"c", c!"bg", c!"s", c!"r"] → BadElem env e
  | flag {e a b} : splitOn ':' e = [a, b] → strip a ∈ [c!"b", c!"i", c!"u"] → strip b ∉ [c!"0", c!"1"] → BadElem env e
  | font {e a b} : splitOn ':' e = [a, b] → strip a = c!"f" → env.fontOk (strip b) = false → BadElem env e
  | number {e a b} : splitOn ':' e = [a, b] → strip a ∈ [c!"s", c!"r"] → env.pf (strip b) = none → BadElem env e

theorem bad_elem {env : StyleEnv} {e : Str} (h : BadElem env e) (st : Style) : styleElem env e st = .error .valueError := by
  cases h with
  | colons h =>
    unfold styleElem
    split
    · rename_i heq; rw [heq] at h; simp at h
    · rename_i heq; rw [heq] at h; simp at h
    · rfl
  | name h1 h2 h3 =>
    have h4 : isBoolAttr (strip e) = false := by
      simp only [List.mem_cons, List.not_mem_nil, or_false, not_or] at h3
      simp [isBoolAttr, h3]
    simp [styleElem, splitOn_free h1, styleFlag, h2, h4]
  | @unknown a b h1 h2 =>
    simp only [List.mem_cons, List.not_mem_nil, or_false, not_or] at h2
    obtain ⟨hb, hi, hu, hf, hc, hbg, hs, hr⟩ := h2
    have hbool : isBoolAttr (strip a) = false := by simp [isBoolAttr, hb, hi, hu]
    have hs' : a ≠ c!"s" := by rintro rfl; exact hs rfl
    have hr' : a ≠ c!"r" := by rintro rfl; exact hr rfl
    simp [styleElem, h1, styleAttr, hbool, styleParam, hf, hc, hbg, hs', hr']
  | @flag a b h1 h2 h3 =>
    have hbool : isBoolAttr (strip a) = true := by
      simp only [List.mem_cons, List.not_mem_nil, or_false] at h2
      rcases h2 with h | h | h <;> simp [isBoolAttr, h]
    simp only [List.mem_cons, List.not_mem_nil, or_false, not_or] at h3
    simp [styleElem, h1, styleAttr, hbool, h3]
  | @font a b h1 h2 h3 =>
    have hbool : isBoolAttr c!"f" = false := by decide
    simp [styleElem, h1, styleAttr, h2, hbool, styleParam, h3]
  | @number a b h1 h2 h3 =>
    simp only [List.mem_cons, List.not_mem_nil, or_false] at h2
    rcases h2 with h | h
    all_goals
      have hb1 : isBoolAttr c!"s" = false := by decide
      have hb2 : isBoolAttr c!"r" = false := by decide
      simp only [styleElem, h1, styleAttr, h, hb1, hb2, styleParam, h3]
      simp

/-- C16: a malformed element anywhere makes the string be rejected, and after well-formed elements it does so with `ValueError`. -/
theorem C16_malformed_rejected (env : StyleEnv) (s e : Str) (pre : List (StyleItem × Option (Str × StyleVal))) (post : List Str)
    (hbad : BadElem env e) :
    (e ∈ splitOn ';' s → ∃ x, parseStyleStr env s = .error x) ∧
    (splitOn ';' s = (pre.map fun p => p.1.text) ++ e :: post → (∀ p ∈ pre, ItemSets env p.1 p.2) →
      parseStyleStr env s = .error .valueError) := by
  refine ⟨fun he => styleLoop_error (fun st => ⟨.valueError, bad_elem hbad st⟩) _ he [], ?_⟩
  intro hs hp
  rw [parseStyleStr, hs]
  generalize ([] : Style) = st
  clear hs
  induction pre generalizing st with
  | nil => simp [styleLoop, bad_elem hbad st]
  | cons p pre ih =>
    simp only [List.map_cons, List.cons_append, styleLoop, item_sets (hp p List.mem_cons_self) st]
    exact ih (fun q hq => hp q (List.mem_cons_of_mem _ hq)) _

example (env : StyleEnv) (h : env.pf c!"x" = none) : parseStyleStr env c!"b;s:x;u" = .error .valueError :=
  (C16_malformed_rejected env _ c!"s:x" [(.flag [] c!"b" [], some (c!"b", .flag true))] [c!"u"]
    (.number (a := c!"s") (b := c!"x") rfl (by decide) h)).2 rfl (by
      intro p hp
      simp only [List.mem_cons, List.not_mem_nil, or_false] at hp
      subst hp
      exact .flag (by simp [Blank]) (by simp [Blank]) (.inl rfl))

/-- C16 is false for malformed colours: they raise `TypeError`, not `ValueError`. -/
theorem C16_bad_color_type_error (env : StyleEnv) (h : env.pf c!"foo" = none) :
    parseStyleStr env c!"c:foo" = .error .typeError := by
  have hc : parseColor env.pf (.str c!"foo") = .error .typeError := by
    have hf : colorTable.find? (fun p => p.1 = c!"foo") = none := by decide +kernel
    simp only [parseColor]
    rw [if_neg (by simp), hf]
    simp only
    rw [if_neg (by decide)]
    have : splitCommaSpace c!"foo" = [c!"foo"] := by rfl
    simp [this, parseColorSeq, elemFloat, h]
  have h1 : splitOn ';' c!"c:foo" = [c!"c:foo"] := by rfl
  have h2 : splitOn ':' c!"c:foo" = [c!"c", c!"foo"] := by rfl
  have h3 : strip c!"c" = c!"c" := by rfl
  have h4 : strip c!"foo" = c!"foo" := by rfl
  have h5 : isBoolAttr c!"c" = false := by decide
  simp [parseStyleStr, h1, styleLoop, styleElem, h2, styleAttr, h3, h4, h5, styleParam, hc]

/-- C16 is false around `s` and `r`: their names are not stripped, so a blank before them is an error
although it is accepted before the other attributes. -/
theorem C16_blank_before_size_rejected (env : StyleEnv) (v : Str) (hv : Plain v) :
    (∃ e, parseStyleStr env (joinWith ';' [c!"b", joinWith ':' [c!" s", v]]) = .error e) := by
  have hp : Plain c!" s" := by simp [Plain]
  have hsp : splitOn ';' (joinWith ';' [c!"b", joinWith ':' [c!" s", v]])
      = [c!"b", joinWith ':' [c!" s", v]] := by
    apply splitOn_joinWith (by simp)
    intro s hs
    simp only [List.mem_cons, List.not_mem_nil, or_false] at hs
    rcases hs with rfl | rfl
    · simp
    · exact joinTwo_free hp hv
  rw [parseStyleStr, hsp]
  refine styleLoop_error (s := joinWith ':' [c!" s", v]) (fun st => ⟨.valueError, ?_⟩) _ (by simp) []
  have h3 : strip c!" s" = c!"s" := by rfl
  have h5 : isBoolAttr c!"s" = false := by decide
  simp [styleElem, split_two hp hv, styleAttr, h3, h5, styleParam]

example : parseStyleStr ⟨fun s => ((parseInt s).toOption).map fun n => (n : Rat), fun s => s = c!"Times"⟩
    c!"b; f:Times;;s:10;s: 12" =
    .ok [(c!"b", .flag true), (c!"f", .font c!"Times"), (c!"s", .num 12)] := by decide +kernel
example (env : StyleEnv) (h : env.pf c!"10" = some 10) :
    ∀ p ∈ [(StyleItem.flag [] c!"b" [], some (c!"b", StyleVal.flag true)),
      (.size c!"10", some (c!"s", .num 10))], ItemSets env p.1 p.2 := by
  intro p hp
  simp only [List.mem_cons, List.not_mem_nil, or_false] at hp
  rcases hp with rfl | rfl
  · exact .flag (by simp [Blank]) (by simp [Blank]) (.inl rfl)
  · exact .size (by simp [Plain]) h

end Verif
