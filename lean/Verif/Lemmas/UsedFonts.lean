import Verif.Props.C26_TextState
/-! The fonts that a run of a paragraph reports are those of its styles. -/
namespace Verif
open Spec

/-- a font of the styles of a paragraph -/
def StyleFontOf (cfg : TCfg) (k : Str × Str) : Prop :=
  (∃ x ∈ contentLooks cfg.content, x.st.font = k) ∨ ∃ lc, cfg.list = some lc ∧ lc.state.font = k

theorem usedOnly_hyp (M : Metrics) (cfg : TCfg) (width height : Rat) :
    RunHyp M cfg width height (fun r _ _ => ∀ k ∈ r.used ++ r.curUsed, StyleFontOf cfg k) (fun r => ∀ k ∈ r.used, StyleFontOf cfg k) where
  added := by intro r i k ws look ids w l' h _ _ _ _ _; exact h
  keep := by intro r i k ws look ids w l' res h _ _ _ _ _ _; exact h
  finOk := by
    intro r i k ws look ids w l' nl b h _ _ _ _ _ _ _ x hx
    exact h x (by simpa [accept] using hx)
  finBad := by
    intro r i k ws look ids w l' nl h _ _ _ _ _ _ x hx
    exact h x (by simp only [reject] at hx; simp [hx])
  part := by
    intro r i k ws look ids h _ hc x hx
    have hlook : StyleFontOf cfg (look.st.family, look.st.mode) := Or.inl ⟨look, contentLooks_mem hc, rfl⟩
    unfold partStart setupList at hx
    cases hl : cfg.list with
    | none =>
      rw [hl] at hx
      simp only [List.mem_append, List.mem_singleton] at hx
      rcases hx with hx | hx | rfl
      · exact h x (by simp [hx])
      · exact h x (by simp [hx])
      · exact hlook
    | some lc =>
      rw [hl] at hx
      simp only at hx
      split at hx
      · simp only [List.mem_append, List.mem_singleton] at hx
        rcases hx with hx | hx | rfl
        · exact h x (by simp [hx])
        · exact h x (by simp [hx])
        · exact hlook
      · simp only [List.mem_append, List.mem_singleton] at hx
        rcases hx with hx | (hx | rfl) | rfl
        · exact h x (by simp [hx])
        · exact h x (by simp [hx])
        · exact Or.inr ⟨lc, hl, rfl⟩
        · exact hlook
  partEnd := by intro r i ws look ids h _ _; exact h
  skip := by intro r i h _ _; exact h
  brOk := by intro r i h _ _ _ x hx; exact h x (by simpa [accept] using hx)
  brBad := by intro r i h _ _ _ x hx; exact h x (by simp only [reject] at hx; simp [hx])

/-- only fonts of the styles are reported -/
theorem textRun_used_only (M : Metrics) (cfg : TCfg) (width height : Rat) (pos : TPos) (hv : ValidPos cfg.content pos.lastPart pos.lastWord) :
    ∀ k ∈ (textRun M cfg width height pos).used, StyleFontOf cfg k := by
  refine textRun_ind (usedOnly_hyp M cfg width height) pos hv.2 hv.1 ?_ (R := fun r => ∀ k ∈ r.used, StyleFontOf cfg k) (fun r hr => hr) ?_ ?_
  · intro k hk
    simp [runInit] at hk
  · intro r hr _ _ x hx
    exact hr x (by simpa [accept] using hx)
  · intro r hr _ _ x hx
    exact hr x (by simp only [reject] at hx; simp [hx])

end Verif
