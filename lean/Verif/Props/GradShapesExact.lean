import Verif.Lemmas.GradShapes
import Verif.Props.Graph2

/-!
# Exactly when gradients have the shapes of their tensors (C38)
-/

namespace RL

open Spec

variable {T : Type}

attribute [local instance] Test.intFn

section
variable [Zero T] [One T] [Add T] [Mul T] [Sub T] [Neg T] [LT T] [DecidableLT T] [LE T] [DecidableLE T] [RealFn T]

/-- C38, exactly, for one operation: in a state in which all gradients have the shapes of their tensors they have them after the
operation if and only if it is not one of `Misfits`: the sum of a tensor that is no scalar, or `update_grad` with a tensor of another
shape (of a larger one, if there is a gradient already). -/
theorem C38_step_exact (h h' : Heap T) (hr : Reachable h) (op : Op T) (e : op.run h = .ok h') (hfit : GradShapesFit h) :
    GradShapesFit h' ↔ ¬ Misfits h op :=
  Op.run_gradShapesFit hr.good hfit e

/-- C38, exactly, for whole programs: all gradients have the shapes of their tensors at all times if and only if no operation of the
program is one of `Misfits`. -/
theorem C38_exact (ops : List (Op T)) (h : Heap T) (e : runOps [] ops = .ok h) :
    (∀ pre post hp, ops = pre ++ post → runOps [] pre = .ok hp → GradShapesFit hp) ↔
      ∀ pre op post hp, ops = pre ++ op :: post → runOps [] pre = .ok hp → ¬ Misfits hp op := by
  constructor
  · rintro hs pre op post hp rfl hpre
    rw [runOps_append, hpre, R.bind_ok, runOps_cons, R.bind_eq_ok] at e
    obtain ⟨h1, e1, e2⟩ := e
    refine (Op.run_gradShapesFit (runOps_good hpre) (hs pre (op :: post) hp rfl hpre) e1).1 ?_
    exact hs (pre ++ [op]) post h1 (by simp) (by rw [runOps_append, hpre, R.bind_ok, runOps_cons, e1]; rfl)
  · intro hs pre
    induction pre using List.reverseRecOn with
    | nil =>
      rintro post hp - hpre
      cases hpre
      intro t v g hv
      simp [dataOf] at hv
    | append_singleton pre op ih =>
      rintro post hp rfl hpre
      rw [runOps_append, R.bind_eq_ok] at hpre
      obtain ⟨h1, e1, e2⟩ := hpre
      rw [runOps_cons, R.bind_eq_ok] at e2
      obtain ⟨h2, e2, e3⟩ := e2
      cases e3
      exact (Op.run_gradShapesFit (runOps_good e1) (ih (op :: post) h1 (by simp) e1) e2).2 (hs pre op post h1 (by simp) e1)

/-- C38: whatever gradients other tensors have, `backward` gives a tensor without gradient one of its shape, and keeps one of its
shape. -/
theorem C38_backward (h h' : Heap T) (hr : Reachable h) (l t : Nat) (v : Raw T) (e : backward h l = .ok h') (hv : dataOf h t = some v)
    (hg : ∀ g, gradOf h t = some g → g.shape = v.shape) : ∀ g, gradOf h' t = some g → g.shape = v.shape := by
  obtain ⟨n, hn, rfl⟩ := dataOf_eq.1 hv
  obtain ⟨_, d, us, _, _, _, u1, a1⟩ := backward_inv hr.good e
  exact gradAccum_shape (fun c hc => (gradContribs_shape u1 hn c hc).1) hg (applyUpdates_grad hr.good (getElem?_lt hn) a1)

/-- C38: a gradient that is larger than the tensor, such as the one `sum` gives its result, keeps its shape in every `backward`. -/
theorem C38_stale (h h' : Heap T) (hr : Reachable h) (l t : Nat) (v p g : Raw T) (e : backward h l = .ok h') (hv : dataOf h t = some v)
    (hp : gradOf h t = some p) (hw : Within v.shape p.shape) (hg : gradOf h' t = some g) : g.shape = p.shape := by
  obtain ⟨n, hn, rfl⟩ := dataOf_eq.1 hv
  obtain ⟨_, d, us, _, _, _, u1, a1⟩ := backward_inv hr.good e
  exact gradAccum_within (fun c hc => by rw [(gradContribs_shape u1 hn c hc).1]; exact hw) (fun q hq => by rw [hp] at hq; cases hq; rfl)
    (by rw [hp]; simp) (applyUpdates_grad hr.good (getElem?_lt hn) a1) g hg

/-- C38, test: the gradient of a sum inside a larger graph still has the shape of the summed tensor after `backward`. -/
example : ∃ h h' : Heap Int, runOps [] [.new [5, 7] [2], .sum 0, .neg 2] = .ok h ∧ gradOf h 2 = some ⟨[1, 1], [2]⟩ ∧ backward h 3 = .ok h' ∧
    gradOf h' 2 = some ⟨[0, 0], [2]⟩ ∧ Within [] [2] := ⟨_, _, rfl, rfl, rfl, rfl, by simp [Within]⟩

/-- C38, test: the second gradient given to a matrix may be a row, the first may not, and neither may be larger than the matrix. -/
example : ∃ h h' : Heap Int, runOps [] [.new [1, 2, 3, 4] [2, 2], .new [5, 6] [2], .new [1, 1, 1, 1] [2, 2]] = .ok h ∧
    Misfits h (.updateGrad 0 1) ∧ ¬ Misfits h (.updateGrad 0 2) ∧ runOps h [.updateGrad 0 2] = .ok h' ∧
    ¬ Misfits h' (.updateGrad 0 1) ∧ (do let g ← runOps h' [.updateGrad 0 1]; return gradOf g 0) = (.ok (some ⟨[6, 7, 6, 7], [2, 2]⟩) : R _) := by
  refine ⟨_, _, rfl, .first _ _ _ _ rfl rfl rfl (by decide), ?_, rfl, ?_, by decide⟩
  · rintro (_ | _ | ⟨_, _, a, b, ha, hb, -, hne⟩ | ⟨_, _, a, b, p, ha, hb, hp, -⟩)
    · cases ha
      cases hb
      exact hne rfl
    · cases hp
  · rintro (_ | _ | ⟨_, _, a, b, ha, hb, hp, hne⟩ | ⟨_, _, a, b, p, ha, hb, hp, hne⟩)
    · cases hp
    · cases ha
      cases hb
      exact hne ⟨by decide, .cons (by decide) .nil⟩

end

end RL
