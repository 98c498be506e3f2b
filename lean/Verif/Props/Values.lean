import Verif.SpecValue
import Verif.Lemmas.Fresh
import Verif.Lemmas.Accum
import Verif.Lemmas.TestInt


/-!
# Values of operations on tensors with history (C66)
-/

namespace RL

open Spec

variable {T : Type} [Zero T] [One T] [Add T] [Mul T] [Sub T] [Neg T] [LT T] [DecidableLT T] [LE T] [DecidableLE T] [RealFn T]

theorem look_eq (h : Heap T) (t : Nat) : look h t = (h.node t).map Node.val := by
  cases e : h[t]? <;> simp [look, dataOf, Heap.node, idxR, e, R.panic, Except.map, pure, Except.pure]

theorem R.map_bind' {α β γ : Type} (x : R α) (g : α → R β) (f : β → γ) : (x >>= g).map f = x >>= fun a => (g a).map f := by
  cases x <;> rfl

theorem R.bind_map' {α β γ : Type} (x : R α) (f : α → β) (g : β → R γ) : x.map f >>= g = x >>= fun a => g (f a) := by
  cases x <;> rfl

theorem R.map_pure' {α β : Type} (a : α) (f : α → β) : (pure a : R α).map f = pure (f a) := rfl

theorem R.map_eq {α β : Type} (x : R α) (f : α → β) : x.map f = x >>= fun a => pure (f a) := by cases x <;> rfl

theorem eval_lookView (h : Heap T) (v : VExpr) : v.eval h = lookView h v := by
  induction v with
  | view t ranges => simp only [VExpr.eval, lookView, look_eq, R.bind_map']
  | reshape v s ih => simp only [VExpr.eval, lookView, ih]
  | slice v s ih => simp only [VExpr.eval, lookView, ih]

theorem eval_lookOpnd (h : Heap T) (x : Opnd) : x.eval h = lookOpnd h x := by
  cases x with
  | tensor t => simp only [Opnd.eval, lookOpnd, look_eq, R.bind_map']
  | view v => simp only [Opnd.eval, lookOpnd, eval_lookView]

theorem node_append (h : Heap T) (n : Node T) (l : Nat) (hl : l ≠ h.length) : Heap.node (h ++ [n]) l = h.node l := by
  rcases Nat.lt_trichotomy l h.length with h1 | h1 | h1
  · simp [Heap.node, idxR, List.getElem?_append_left h1]
  · exact absurd h1 hl
  · have e1 : (h ++ [n])[l]? = none := List.getElem?_eq_none (by simp; omega)
    have e2 : h[l]? = none := List.getElem?_eq_none (by omega)
    simp [Heap.node, idxR, e1, e2]

/-- C66: an operation on tensors succeeds exactly if the corresponding function on their data does, and the last new tensor, its
result, holds the data this function returns. So operations on `RcTensor`s with history, on `RawTensor`s and on views compute the
same values. The left operand of a subtraction is not the tensor the subtraction is about to create. -/
theorem C66_value (h : Heap T) (op : Op T) (r : R (Raw T)) (hr : resultOf h op = some r) (hs : ∀ w, op ≠ .sub h.length w) :
    (op.run h).map (fun h' => dataOf h' (h'.length - 1)) = r.map some := by
  have last : ∀ (k : Heap T) (n : Node T), dataOf (k ++ [n]) ((k ++ [n]).length - 1) = some n.val := by
    intro k n; simp [dataOf]
  cases op
  case updateGrad | zeroGrad | backward => cases hr
  case sub l w =>
    cases hr
    have hl : l ≠ h.length := by rintro rfl; exact hs w rfl
    simp only [Op.run, subT, negT, addT, Heap.alloc, look_eq, R.bind_map', R.map_bind', R.map_eq, bind_assoc, pure_bind, last,
      node_append _ _ _ hl]
    refine bind_congr fun a => bind_congr fun b => bind_congr fun c => ?_
    have : Heap.node (h ++ [(⟨b, none, some ⟨[w], .neg⟩⟩ : Node T)]) h.length = pure ⟨b, none, some ⟨[w], .neg⟩⟩ := by
      simp [Heap.node, idxR]
    simp only [this, pure_bind]
  case rawBin k l r =>
    cases k <;> cases hr <;>
    simp only [Op.run, rawBinT, RawBin.val, Heap.leaf, Heap.alloc, leafNode, eval_lookOpnd, R.bind_map', R.map_bind', R.map_eq,
      bind_assoc, pure_bind, last]
  case scalar => cases hr; simp [Op.run, Heap.leaf, Heap.alloc, leafNode, Raw.scalar, R.map_eq, dataOf]
  case default => cases hr; simp [Op.run, Heap.leaf, Heap.alloc, leafNode, Raw.default, R.map_eq, dataOf]
  case filler => cases hr; simp [Op.run, Heap.leaf, Heap.alloc, leafNode, R.map_eq, dataOf]
  all_goals
    cases hr
    simp only [Op.run, addT, negT, mulT, reluT, tanhT, absT, sumT, bmmT, dotT, viewToTensorT, viewSumT, bmmViewT, viewBmmT,
      viewBmmViewT, mulViewT, rawSubT, subRaw, rawUnaryT, leftMulT, rightMulT, rawSumT, deepCloneT, rawCloneT, Heap.leaf, Heap.alloc, leafNode, look_eq,
      eval_lookView, eval_lookOpnd, R.bind_map', R.map_bind', R.map_eq, bind_assoc, pure_bind, last]

/-- C66: the result of an operation has no gradient, except that a `sum` of a tensor starts with ones in the shape of its operand and
a copy of a `RawTensor` has the gradient of the original. -/
theorem C66_gradient (h h' : Heap T) (op : Op T) (hr : Reachable h) (hop : resultOf h op ≠ none) (e : op.run h = .ok h') :
    gradOf h' (h'.length - 1) = firstGrad h op := by
  have hg : op.isGrad = false := by cases op <;> first | rfl | exact absurd rfl hop
  have key : ∀ p, (op.fresh h).getLast? = some p → p.1 = none → gradOf h' (h'.length - 1) = none := by
    intro p hp hn
    obtain ⟨ns, rfl, hns⟩ := Op.run_fresh hg e
    rw [← hns, List.getLast?_map, Option.map_eq_some_iff] at hp
    obtain ⟨n, hn', rfl⟩ := hp
    have hne : ns ≠ [] := by rintro rfl; simp at hn'
    have : (h ++ ns)[(h ++ ns).length - 1]? = some n := by
      rw [← List.getLast?_eq_getElem?, List.getLast?_append, hn']; rfl
    simp only [gradOf, this, Option.bind_some]
    rw [show n.grad = none from hn]; rfl
  cases op
  case updateGrad | zeroGrad | backward => exact absurd rfl hop
  case sum t =>
    obtain ⟨_, e⟩ := map_fst_eq_ok e
    obtain ⟨n, v, hn, hv, rfl, -⟩ := sumT_inv e
    simp [gradOf, firstGrad, dataOf, hn, leafNode]
  case rawSum t =>
    obtain ⟨_, e⟩ := map_fst_eq_ok e
    obtain ⟨n, v, hn, hv, rfl, -⟩ := rawSumT_inv e
    simp [gradOf, firstGrad, dataOf, hn, leafNode]
  case rawClone t =>
    obtain ⟨_, e⟩ := map_fst_eq_ok e
    simp only [rawCloneT, R.bind_eq_ok, R.pure_eq_ok] at e
    obtain ⟨n, hn, e⟩ := e
    cases e
    have hn := Heap.node_eq_ok.1 hn
    simp only [gradOf, firstGrad, hn, Heap.alloc]
    cases hgr : n.grad with
    | none => simp [hgr]
    | some g => simp [hgr, List.getElem?_append_left ((hr.good t n hn).grad g hgr)]
  all_goals exact key _ rfl rfl

/-! ## tests -/

section

attribute [local instance] Test.intFn

/-- C66, test: the hypotheses hold for a subtraction after two constructions, the value is the difference. -/
example : ∃ h : Heap Int, runOps [] [.new [5, 7] [2], .new [1, 2] [2]] = .ok h ∧ (∀ w, (Op.sub 0 1 : Op Int) ≠ .sub h.length w) ∧
    resultOf h (.sub 0 1) = some (.ok ⟨[4, 5], [2]⟩) ∧
    (Op.run h (.sub 0 1)).map (fun h' => dataOf h' (h'.length - 1)) = .ok (some ⟨[4, 5], [2]⟩) :=
  ⟨_, rfl, by simp [Heap.leaf, Heap.alloc], rfl, rfl⟩

/-- C66, test: the first gradient of a sum. -/
example : ∃ h h' : Heap Int, runOps [] [.new [5, 7] [2]] = .ok h ∧ Op.run h (.sum 0) = .ok h' ∧
    gradOf h' (h'.length - 1) = some ⟨[1, 1], [2]⟩ ∧ firstGrad h (.sum 0) = some ⟨[1, 1], [2]⟩ :=
  ⟨_, _, rfl, rfl, rfl, rfl⟩

end

end RL
