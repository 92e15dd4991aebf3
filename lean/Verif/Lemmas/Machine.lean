import Verif.Spec.Machine
import Verif.Lemmas.Content
/-! Lemmas about the imaging machine. -/
namespace Verif
open Spec

theorem exec_append (m : MS) (a b : List Op) :
    exec m (a ++ b) = (exec m a).bind fun r => (exec r.1 b).map fun q => (q.1, r.2 ++ q.2) := by
  induction a generalizing m with
  | nil => simp [exec]
  | cons o a ih =>
    simp only [List.cons_append, exec]
    cases h : step m o with
    | none => rfl
    | some p =>
      obtain ⟨m', e⟩ := p
      simp only [ih]
      cases exec m' a with
      | none => rfl
      | some r =>
        simp only [Option.bind_some, Option.map_some]
        cases exec r.1 b with
        | none => rfl
        | some q => simp [List.append_assoc]

/-- executing one piece after another -/
theorem exec_append_of {m m' m'' : MS} {a b : List Op} {e f : List Event}
    (h1 : exec m a = some (m', e)) (h2 : exec m' b = some (m'', f)) :
    exec m (a ++ b) = some (m'', e ++ f) := by
  simp [exec_append, h1, h2]

theorem exec_cons_of {m m' m'' : MS} {o : Op} {b : List Op} {e f : List Event}
    (h1 : step m o = some (m', e)) (h2 : exec m' b = some (m'', f)) :
    exec m (o :: b) = some (m'', e ++ f) := by
  simp [exec, h1, h2]

theorem exec_one {m m' : MS} {o : Op} {e : List Event} (h : step m o = some (m', e)) :
    exec m [o] = some (m', e) := by simp [exec, h]

/-- the operators a stream reads as are determined -/
theorem OpsTo.unique {s : Str} {l l' : List Op} (h : OpsTo s l) (h' : OpsTo s l') : l = l' := by
  have := h.ops
  rw [h'.ops] at this
  exact (Option.some.inj this).symm

theorem OpsTo.append_space {a b : Str} {l m : List Op} (ha : OpsTo a l) (hb : OpsTo b m) :
    OpsTo (a ++ ' ' :: b) (l ++ m) :=
  ha.append hb.space (by show isRegular (latin1 ' ') = false; decide)

/-- an operator without operands -/
theorem opsTo_word (w : Str) (h : w ≠ [] ∧ ∀ c ∈ w, isRegular (latin1 c) = true)
    (hn : isNumber (bytesOf w) = false) : OpsTo w [⟨[], bytesOf w⟩] :=
  numsOp_ops (l := []) (by simp) h hn

section steps
variable {m : MS}

theorem step_q (h1 : m.path = []) (h2 : m.text = none) :
    step m ⟨[], b!"q"⟩ = some ({ m with stack := m.gs :: m.stack }, []) := by
  simp [step, h1, h2]

theorem step_Q {g : GS} {l : List GS} (hs : m.stack = g :: l) (h1 : m.path = []) (h2 : m.text = none) :
    step m ⟨[], b!"Q"⟩ = some ({ m with gs := g, stack := l }, []) := by
  simp [step, h1, h2, hs]

theorem step_g {a : Bytes} (h : m.path = []) :
    step m ⟨[.num a], b!"g"⟩ = some ({ m with gs := { m.gs with fill := [a] } }, []) := by
  simp [step, nums, h]

theorem step_G {a : Bytes} (h : m.path = []) :
    step m ⟨[.num a], b!"G"⟩ = some ({ m with gs := { m.gs with stroke := [a] } }, []) := by
  simp [step, nums, h]

theorem step_rg {a b c : Bytes} (h : m.path = []) :
    step m ⟨[.num a, .num b, .num c], b!"rg"⟩ =
      some ({ m with gs := { m.gs with fill := [a, b, c] } }, []) := by
  simp [step, nums, h]

theorem step_RG {a b c : Bytes} (h : m.path = []) :
    step m ⟨[.num a, .num b, .num c], b!"RG"⟩ =
      some ({ m with gs := { m.gs with stroke := [a, b, c] } }, []) := by
  simp [step, nums, h]

theorem step_w {a : Bytes} (h : m.path = []) :
    step m ⟨[.num a], b!"w"⟩ = some ({ m with gs := { m.gs with width := a } }, []) := by
  simp [step, nums, h]

theorem step_J {a : Bytes} (h : m.path = []) :
    step m ⟨[.num a], b!"J"⟩ = some ({ m with gs := { m.gs with cap := a } }, []) := by
  simp [step, nums, h]

theorem step_d {l : List Bytes} {a : Bytes} (h : m.path = []) :
    step m ⟨[.arr l, .num a], b!"d"⟩ = some ({ m with gs := { m.gs with dash := (l, a) } }, []) := by
  simp [step, h]

theorem step_re {x y w h : Bytes} (ht : m.text = none) :
    step m ⟨[.num x, .num y, .num w, .num h], b!"re"⟩ =
      some ({ m with path := m.path ++ [.rect x y w h] }, []) := by
  simp [step, nums, ht]

theorem step_m {x y : Bytes} (ht : m.text = none) :
    step m ⟨[.num x, .num y], b!"m"⟩ = some ({ m with path := m.path ++ [.move x y] }, []) := by
  simp [step, nums, ht]

theorem step_l {x y : Bytes} (ht : m.text = none) (hp : m.path ≠ []) :
    step m ⟨[.num x, .num y], b!"l"⟩ = some ({ m with path := m.path ++ [.line x y] }, []) := by
  simp [step, nums, ht, hp]

theorem step_F (hp : m.path ≠ []) :
    step m ⟨[], b!"F"⟩ = some ({ m with path := [] }, [.fill m.gs m.path]) := by
  simp [step, nums, hp]

theorem step_S (hp : m.path ≠ []) :
    step m ⟨[], b!"S"⟩ = some ({ m with path := [] }, [.stroke m.gs m.path]) := by
  simp [step, nums, hp]

theorem step_cm {a b c d e f : Bytes} (hp : m.path = []) (ht : m.text = none) :
    step m ⟨[.num a, .num b, .num c, .num d, .num e, .num f], b!"cm"⟩ =
      some ({ m with gs := { m.gs with cms := m.gs.cms ++ [[a, b, c, d, e, f]] } }, []) := by
  simp [step, nums, hp, ht]

theorem step_Do {n : Bytes} (hp : m.path = []) (ht : m.text = none) :
    step m ⟨[.name n], b!"Do"⟩ = some (m, [.xobject m.gs n]) := by
  simp [step, hp, ht]

theorem step_BT (hp : m.path = []) (ht : m.text = none) :
    step m ⟨[], b!"BT"⟩ = some ({ m with text := some ([], []) }, []) := by
  simp [step, nums, hp, ht]

theorem step_ET {t} (ht : m.text = some t) :
    step m ⟨[], b!"ET"⟩ = some ({ m with text := none }, []) := by
  simp [step, nums, ht]

theorem step_Tm {a b c d e f : Bytes} {t} (ht : m.text = some t) :
    step m ⟨[.num a, .num b, .num c, .num d, .num e, .num f], b!"Tm"⟩ =
      some ({ m with text := some ([a, b, c, d, e, f], []) }, []) := by
  simp [step, nums, ht]

theorem step_Td {x y : Bytes} {tm mv} (ht : m.text = some (tm, mv)) :
    step m ⟨[.num x, .num y], b!"Td"⟩ = some ({ m with text := some (tm, mv ++ [(x, y)]) }, []) := by
  simp [step, nums, ht]

theorem step_Tf {f s : Bytes} (hp : m.path = []) :
    step m ⟨[.name f, .num s], b!"Tf"⟩ = some ({ m with gs := { m.gs with font := (f, s) } }, []) := by
  simp [step, hp]

theorem step_Ts {a : Bytes} (hp : m.path = []) :
    step m ⟨[.num a], b!"Ts"⟩ = some ({ m with gs := { m.gs with rise := a } }, []) := by
  simp [step, nums, hp]

theorem step_Tw {a : Bytes} (hp : m.path = []) :
    step m ⟨[.num a], b!"Tw"⟩ = some ({ m with gs := { m.gs with wordSpace := a } }, []) := by
  simp [step, nums, hp]

theorem step_Tj {s : Bytes} {tm mv} (ht : m.text = some (tm, mv)) :
    step m ⟨[.str s], b!"Tj"⟩ = some (m, [.text m.gs tm mv s]) := by
  simp [step, ht]

end steps

end Verif
