import Verif.Lemmas.Accum

/-!
# The tensors an operation creates
-/

namespace RL

open Spec

variable {T : Type}

/-- gradient and history of the tensors an operation creates -/
def Op.fresh (h : Heap T) : Op T → List (Option Nat × Option Deriv)
  | .add l r => [(none, some ⟨[l, r], .add⟩)]
  | .bmm l r => [(none, some ⟨[l, r], .bmm⟩)]
  | .dot l r => [(none, some ⟨[l, r], .dot⟩)]
  | .neg t => [(none, some ⟨[t], .neg⟩)]
  | .relu t => [(none, some ⟨[t], .relu⟩)]
  | .tanh t => [(none, some ⟨[t], .tanh⟩)]
  | .abs t => [(none, some ⟨[t], .abs⟩)]
  | .sub l r => [(none, some ⟨[r], .neg⟩), (none, some ⟨[l, h.length], .add⟩)]
  | .sum t => [(none, none), (some h.length, some ⟨[t], .sum⟩)]
  | .bmmView l _ => [(none, none), (none, some ⟨[l, h.length], .bmm⟩)]
  | .rawSum _ => [(none, none), (some h.length, none)]
  | .rawClone t => (h[t]?.map fun n => (n.grad, n.gradFn)).toList
  | .updateGrad _ _ | .zeroGrad _ | .backward _ => []
  | _ => [(none, none)]

/-- the node's gradient and history -/
def Node.links (n : Node T) : Option Nat × Option Deriv := (n.grad, n.gradFn)

variable [Zero T] [One T] [Add T] [Mul T] [Sub T] [Neg T] [LT T] [DecidableLT T] [LE T] [DecidableLE T] [RealFn T]

theorem Op.run_fresh {h h' : Heap T} {op : Op T} (hop : op.isGrad = false) (e : op.run h = .ok h') :
    ∃ ns, h' = h ++ ns ∧ ns.map Node.links = op.fresh h := by
  cases op <;> simp only [Op.isGrad] at hop <;> try (cases hop; done)
  case new a s =>
    simp only [Op.run, R.bind_eq_ok, R.pure_eq_ok] at e
    obtain ⟨v, _, rfl⟩ := e
    exact ⟨_, rfl, rfl⟩
  case filler s v => simp only [Op.run, R.pure_eq_ok] at e; subst e; exact ⟨_, rfl, rfl⟩
  case scalar v => simp only [Op.run, R.pure_eq_ok] at e; subst e; exact ⟨_, rfl, rfl⟩
  case default => simp only [Op.run, R.pure_eq_ok] at e; subst e; exact ⟨_, rfl, rfl⟩
  case add =>
    obtain ⟨_, e⟩ := map_fst_eq_ok e
    obtain ⟨ln, rn, v, hl, hr, hv, rfl, -⟩ := addT_inv e
    exact ⟨_, rfl, rfl⟩
  case sub =>
    obtain ⟨_, e⟩ := map_fst_eq_ok e
    simp only [subT, R.bind_eq_ok] at e
    obtain ⟨⟨h1, m⟩, e1, e2⟩ := e
    obtain ⟨n, v, _, hv, rfl, rfl⟩ := negT_inv e1
    obtain ⟨ln, rn, v, hl, hr, hv, rfl, -⟩ := addT_inv e2
    exact ⟨_, List.append_assoc _ _ _, rfl⟩
  case neg =>
    obtain ⟨_, e⟩ := map_fst_eq_ok e
    obtain ⟨n, v, _, hv, rfl, -⟩ := negT_inv e
    exact ⟨_, rfl, rfl⟩
  case sum =>
    obtain ⟨_, e⟩ := map_fst_eq_ok e
    obtain ⟨n, v, _, hv, rfl, -⟩ := sumT_inv e
    exact ⟨_, List.append_assoc _ _ _, rfl⟩
  case bmmView =>
    obtain ⟨_, e⟩ := map_fst_eq_ok e
    simp only [bmmViewT, R.bind_eq_ok, R.pure_eq_ok, Heap.alloc, Heap.leaf] at e
    obtain ⟨ln, _, w, _, v, hv, rv, hr, e⟩ := e
    cases e
    exact ⟨_, List.append_assoc _ _ _, rfl⟩
  case rawClone =>
    obtain ⟨_, e⟩ := map_fst_eq_ok e
    obtain ⟨n, hn, rfl, -⟩ := rawCloneT_inv e
    exact ⟨_, rfl, by simp [Op.fresh, hn, Node.links]⟩
  case relu =>
    obtain ⟨_, e⟩ := map_fst_eq_ok e
    simp only [reluT, R.bind_eq_ok, R.pure_eq_ok, Heap.alloc] at e
    obtain ⟨n, _, v, hv, e⟩ := e
    cases e
    exact ⟨_, rfl, rfl⟩
  case tanh =>
    obtain ⟨_, e⟩ := map_fst_eq_ok e
    simp only [tanhT, R.bind_eq_ok, R.pure_eq_ok, Heap.alloc] at e
    obtain ⟨n, _, v, hv, e⟩ := e
    cases e
    exact ⟨_, rfl, rfl⟩
  case abs =>
    obtain ⟨_, e⟩ := map_fst_eq_ok e
    simp only [absT, R.bind_eq_ok, R.pure_eq_ok, Heap.alloc] at e
    obtain ⟨n, _, v, hv, e⟩ := e
    cases e
    exact ⟨_, rfl, rfl⟩
  case bmm =>
    obtain ⟨_, e⟩ := map_fst_eq_ok e
    simp only [bmmT, R.bind_eq_ok, R.pure_eq_ok, Heap.alloc] at e
    obtain ⟨n, _, n', _, v, hv, e⟩ := e
    cases e
    exact ⟨_, rfl, rfl⟩
  case dot =>
    obtain ⟨_, e⟩ := map_fst_eq_ok e
    simp only [dotT, R.bind_eq_ok, R.pure_eq_ok, Heap.alloc] at e
    obtain ⟨n, _, n', _, v, hv, e⟩ := e
    cases e
    exact ⟨_, rfl, rfl⟩
  case mul =>
    obtain ⟨_, e⟩ := map_fst_eq_ok e
    simp only [mulT, R.bind_eq_ok, R.pure_eq_ok, Heap.leaf, Heap.alloc] at e
    obtain ⟨n, _, n', _, v, hv, e⟩ := e
    cases e
    exact ⟨_, rfl, rfl⟩
  case viewToTensor =>
    obtain ⟨_, e⟩ := map_fst_eq_ok e
    simp only [viewToTensorT, R.bind_eq_ok, R.pure_eq_ok, Heap.leaf, Heap.alloc] at e
    obtain ⟨n, _, v, hv, e⟩ := e
    cases e
    exact ⟨_, rfl, rfl⟩
  case viewSum =>
    obtain ⟨_, e⟩ := map_fst_eq_ok e
    simp only [viewSumT, R.bind_eq_ok, R.pure_eq_ok, Heap.leaf, Heap.alloc] at e
    obtain ⟨n, _, v, hv, e⟩ := e
    cases e
    exact ⟨_, rfl, rfl⟩
  case viewBmm =>
    obtain ⟨_, e⟩ := map_fst_eq_ok e
    simp only [viewBmmT, R.bind_eq_ok, R.pure_eq_ok, Heap.leaf, Heap.alloc] at e
    obtain ⟨n, _, n', _, v, hv, e⟩ := e
    cases e
    exact ⟨_, rfl, rfl⟩
  case viewBmmView =>
    obtain ⟨_, e⟩ := map_fst_eq_ok e
    simp only [viewBmmViewT, R.bind_eq_ok, R.pure_eq_ok, Heap.leaf, Heap.alloc] at e
    obtain ⟨n, _, n', _, v, hv, e⟩ := e
    cases e
    exact ⟨_, rfl, rfl⟩
  case mulView =>
    obtain ⟨_, e⟩ := map_fst_eq_ok e
    simp only [mulViewT, R.bind_eq_ok, R.pure_eq_ok, Heap.leaf, Heap.alloc] at e
    obtain ⟨n, _, n', _, v, hv, e⟩ := e
    cases e
    exact ⟨_, rfl, rfl⟩
  case rawBin =>
    obtain ⟨_, e⟩ := map_fst_eq_ok e
    simp only [rawBinT, R.bind_eq_ok, R.pure_eq_ok, Heap.leaf, Heap.alloc] at e
    obtain ⟨_, _, _, _, v, hv, e⟩ := e
    cases e
    exact ⟨_, rfl, rfl⟩
  case rawSub =>
    obtain ⟨_, e⟩ := map_fst_eq_ok e
    simp only [rawSubT, R.bind_eq_ok, R.pure_eq_ok, Heap.leaf, Heap.alloc] at e
    obtain ⟨_, _, _, _, v, hv, e⟩ := e
    cases e
    exact ⟨_, rfl, rfl⟩
  case rawUnary =>
    obtain ⟨_, e⟩ := map_fst_eq_ok e
    simp only [rawUnaryT, R.bind_eq_ok, R.pure_eq_ok, Heap.leaf, Heap.alloc] at e
    obtain ⟨_, _, v, hv, e⟩ := e
    cases e
    exact ⟨_, rfl, rfl⟩
  case leftMul =>
    obtain ⟨_, e⟩ := map_fst_eq_ok e
    simp only [leftMulT, R.bind_eq_ok, R.pure_eq_ok, Heap.leaf, Heap.alloc] at e
    obtain ⟨_, _, e⟩ := e
    cases e
    exact ⟨_, rfl, rfl⟩
  case rightMul =>
    obtain ⟨_, e⟩ := map_fst_eq_ok e
    simp only [rightMulT, R.bind_eq_ok, R.pure_eq_ok, Heap.leaf, Heap.alloc] at e
    obtain ⟨_, _, e⟩ := e
    cases e
    exact ⟨_, rfl, rfl⟩
  case rawSum =>
    obtain ⟨_, e⟩ := map_fst_eq_ok e
    obtain ⟨n, v, _, hv, rfl, -⟩ := rawSumT_inv e
    exact ⟨_, List.append_assoc _ _ _, rfl⟩
  case deepClone =>
    obtain ⟨_, e⟩ := map_fst_eq_ok e
    simp only [deepCloneT, R.bind_eq_ok, R.pure_eq_ok, Heap.alloc] at e
    obtain ⟨n, _, e⟩ := e
    cases e
    exact ⟨_, rfl, rfl⟩

end RL
