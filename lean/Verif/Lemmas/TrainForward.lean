import Verif.Lemmas.TrainTree
import Verif.Props.Nn

/-! Helper lemmas: the computation recorded by a network -/

namespace RL

open Spec

/-- the operation that an activation records -/
def actKind : Act → Option JvpKind
  | .identity => none
  | .relu => some .relu
  | .tanh => some .tanh

/-- `r` is the result of applying the activation to `z` -/
def ActNode (H : Heap ℝ) (base : Nat) (f : Act) (z : Nat) (zv : Raw ℝ) (r : Nat) : Prop :=
  match actKind f with
  | none => r = z
  | some k => base ≤ r ∧ H[r]? = some ⟨⟨zv.array.map f.fn, zv.shape⟩, none, some ⟨[z], k⟩⟩

/-- the tensors made by the layers, up to the output `r` -/
def Chain (H : Heap ℝ) (m base : Nat) (θ : Nat → Nat → ℝ) : Nat → Nat → Nat → (Nat → Nat → ℝ) → List (Linear ℝ) → List (Nat × Act) → Nat → Prop
  | _, _, x, _, [], [], r => r = x
  | k, q, x, a, l :: ls, (n, f) :: ds, r => 0 < n ∧ ∃ y z r1 yv zv, base ≤ y ∧ base ≤ z ∧
      H[y]? = some ⟨yv, none, some ⟨[x, l.weights], .bmm⟩⟩ ∧ yv.shape = [m, n] ∧ WF yv ∧
      H[z]? = some ⟨zv, none, some ⟨[y, l.bias], .add⟩⟩ ∧ Matrix zv m n (affine k a (fun i j => θ q (i * n + j)) (θ (q + 1))) ∧
      ActNode H base f z zv r1 ∧
      shapeOf H x = [m, k] ∧ shapeOf H l.weights = [k, n] ∧ (shapeOf H l.bias = [n] ∨ shapeOf H l.bias = [1, n]) ∧
      Chain H m base θ n (q + 2) r1 (fun i j => f.fn (affine k a (fun i j => θ q (i * n + j)) (θ (q + 1)) i j)) ls ds r
  | _, _, _, _, _, _, _ => False

theorem reluFn_max : (reluFn : ℝ → ℝ) = fun x => max x 0 := by
  funext z
  simp only [reluFn]
  split
  · next h => exact (max_eq_right h.le).symm
  · next h => exact (max_eq_left (not_lt.1 h)).symm

theorem act_run (f : Act) {h : Heap ℝ} {z : Nat} {zn : Node ℝ} (hz : h[z]? = some zn) (wz : WF zn.val) :
    ∃ ns r, f.code h z = .ok (h ++ ns, r) ∧ dataOf (h ++ ns) r = some ⟨zn.val.array.map f.fn, zn.val.shape⟩ ∧
      (∃ ops, runOps h ops = .ok (h ++ ns)) ∧ ∀ base ≤ h.length, ∀ ms, ActNode (h ++ ns ++ ms) base f z zn.val r := by
  have key : ∀ g : ℝ → ℝ, genericUnaryOp (.raw zn.val) g = .ok ⟨zn.val.array.map g, zn.val.shape⟩ := by
    intro g
    have := genericUnaryOp_eq (x := .raw zn.val) wz (Or.inl ⟨_, rfl⟩) g
    rw [elems_raw wz] at this
    exact this
  cases f with
  | identity =>
    refine ⟨[], z, by simp [Act.code, Activation.identity], ?_, ⟨[], by simp [runOps]⟩, fun _ _ _ => rfl⟩
    simp [dataOf, hz, Act.fn]
  | relu =>
    have e : reluT h z = .ok (h ++ [⟨⟨zn.val.array.map Act.relu.fn, zn.val.shape⟩, none, some ⟨[z], .relu⟩⟩], h.length) := by
      simp only [reluT, Heap.node_eq_ok.2 hz, R.bind_ok, reluRaw, reluFn_max, key]
      rfl
    refine ⟨_, _, e, by simp [dataOf], ⟨[.relu z], ?_⟩, fun base hb ms => ?_⟩
    · simp only [runOps, List.foldlM_cons, List.foldlM_nil, Op.run, e, R.bind_ok]
      rfl
    · simp only [ActNode, actKind]
      exact ⟨hb, by simp⟩
  | tanh =>
    have e : tanhT h z = .ok (h ++ [⟨⟨zn.val.array.map Act.tanh.fn, zn.val.shape⟩, none, some ⟨[z], .tanh⟩⟩], h.length) := by
      simp only [tanhT, Heap.node_eq_ok.2 hz, R.bind_ok, tanhRaw, key]
      rfl
    refine ⟨_, _, e, by simp [dataOf], ⟨[.tanh z], ?_⟩, fun base hb ms => ?_⟩
    · simp only [runOps, List.foldlM_cons, List.foldlM_nil, Op.run, e, R.bind_ok]
      rfl
    · simp only [ActNode, actKind]
      exact ⟨hb, by simp⟩

theorem bmm_shape {xv wv y : Raw ℝ} {m k n : Nat} {a w : Nat → Nat → ℝ} (hx : Matrix xv m k a) (hw : Matrix wv k n w)
    (e : bmmRaw (.raw xv) (.raw wv) = .ok y) : y.shape = [m, n] ∧ WF y := by
  obtain ⟨y', e1, ys, yw, _⟩ := C18_matrix (.raw xv) (.raw wv) hx.2.1 hw.2.1 m k n hx.1 hw.1
  rw [e] at e1
  cases e1
  exact ⟨ys, yw⟩

theorem layer_run {h : Heap ℝ} {l : Linear ℝ} {n : Nat} {f : Act} {w : Nat → Nat → ℝ} {b : Nat → ℝ} {x m k : Nat} {xv : Raw ℝ} {a : Nat → Nat → ℝ}
    (hm : 0 < m) (hx : dataOf h x = some xv) (hxm : Matrix xv m k a) (hl : LayerIs h k l ⟨n, w, b, f.fn⟩) (hf : l.activation = f.code) :
    ∃ ns r v, l.forward h x = .ok (h ++ ns, r) ∧ dataOf (h ++ ns) r = some v ∧ Matrix v m n (fun i j => f.fn (affine k a w b i j)) ∧
      (∃ ops, runOps h ops = .ok (h ++ ns)) ∧ ∀ base ≤ h.length, ∀ ms, ∃ y z yv zv, base ≤ y ∧ base ≤ z ∧
      (h ++ ns ++ ms)[y]? = some ⟨yv, none, some ⟨[x, l.weights], .bmm⟩⟩ ∧ yv.shape = [m, n] ∧ WF yv ∧
      (h ++ ns ++ ms)[z]? = some ⟨zv, none, some ⟨[y, l.bias], .add⟩⟩ ∧ Matrix zv m n (affine k a w b) ∧
      ActNode (h ++ ns ++ ms) base f z zv r := by
  obtain ⟨hw0, -, wv, bv, hwv, hbv, hwm, hbr⟩ := hl
  simp only at hw0 hwm hbr
  obtain ⟨y, z, e1, e2, zm⟩ := affine_ok hxm hwm hbr hm hw0
  obtain ⟨zs, zw, ze⟩ := zm
  obtain ⟨ys, yw⟩ := bmm_shape hxm hwm e1
  obtain ⟨xn, hxn, rfl⟩ := dataOf_eq.1 hx
  obtain ⟨wn, hwn, rfl⟩ := dataOf_eq.1 hwv
  obtain ⟨bn, hbn, rfl⟩ := dataOf_eq.1 hbv
  set yn : Node ℝ := ⟨y, none, some ⟨[x, l.weights], .bmm⟩⟩ with hyn
  set zn : Node ℝ := ⟨z, none, some ⟨[h.length, l.bias], .add⟩⟩ with hzn
  have f1 : bmmT h x l.weights = .ok (h ++ [yn], h.length) := by
    simp [bmmT, Heap.node_eq_ok.2 hxn, Heap.node_eq_ok.2 hwn, e1, Heap.alloc, hyn]
  have hyn' : (h ++ [yn])[h.length]? = some yn := by simp
  have hbn' : (h ++ [yn])[l.bias]? = some bn := by rw [List.getElem?_append_left (getElem?_lt hbn)]; exact hbn
  have f2 : addT (h ++ [yn]) h.length l.bias = .ok (h ++ [yn] ++ [zn], h.length + 1) := by
    have : addRaw (.raw yn.val) (.raw bn.val) = .ok z := e2
    simp [addT, Heap.node_eq_ok.2 hyn', Heap.node_eq_ok.2 hbn', this, Heap.alloc, hzn]
  have hz : (h ++ [yn] ++ [zn])[h.length + 1]? = some zn := by simp
  obtain ⟨ns, r, g1, g2, ⟨ops, g3⟩, g4⟩ := act_run f hz zw
  have happ : h ++ [yn] ++ [zn] ++ ns = h ++ ([yn, zn] ++ ns) := by simp
  refine ⟨[yn, zn] ++ ns, r, ⟨z.array.map f.fn, z.shape⟩, ?_, happ ▸ g2, ⟨zs, ?_, ?_⟩, ⟨[.bmm x l.weights, .add h.length l.bias] ++ ops, ?_⟩, ?_⟩
  · simp only [Linear.forward, f1, R.bind_ok, f2, hf, g1, happ]
  · simpa [WF] using zw
  · intro i hi j hj
    have := ze i hi j hj
    simp only [Raw.elem?, List.getElem?_map] at this ⊢
    rw [this]
    rfl
  · rw [runOps_append]
    have : runOps h [.bmm x l.weights, .add h.length l.bias] = .ok (h ++ [yn] ++ [zn]) := by
      simp only [runOps, List.foldlM_cons, List.foldlM_nil, Op.run, f1, R.bind_ok, pure_bind, f2]
      rfl
    rw [this, ← happ]
    exact g3
  · intro base hb ms
    refine ⟨h.length, h.length + 1, y, z, hb, by omega, ?_, ys, yw, ?_, ⟨zs, zw, ze⟩, ?_⟩
    · simp [hyn]
    · simp [hzn]
    · have := g4 base (by simp; omega) ms
      rw [happ] at this
      exact this

theorem shapeOf_append {h ns : Heap ℝ} {t : Nat} {v : Raw ℝ} (hv : dataOf h t = some v) : shapeOf (h ++ ns) t = v.shape :=
  shapeOf_data (dataOf_append hv)

theorem forward_chain {m : Nat} (hm : 0 < m) {θ : Nat → Nat → ℝ} : ∀ {ls : List (Linear ℝ)} {ds : List (Nat × Act)} {h : Heap ℝ} {k q x : Nat}
    {xv : Raw ℝ} {a : Nat → Nat → ℝ}, dataOf h x = some xv → Matrix xv m k a → LayersAre h k ls (layerFns θ q ds) →
    (ls.map (·.activation) = ds.map fun d => d.2.code) →
    ∃ ns r v, (⟨ls⟩ : Mlp ℝ).forward h x = .ok (h ++ ns, r) ∧ dataOf (h ++ ns) r = some v ∧
      Matrix v m (lastWidth k ds) (netValue k (layerFns θ q ds) a) ∧ (∃ ops, runOps h ops = .ok (h ++ ns)) ∧
      ∀ base ≤ h.length, ∀ ms, Chain (h ++ ns ++ ms) m base θ k q x a ls ds r := by
  intro ls
  induction ls with
  | nil =>
    intro ds h k q x xv a hx hxm hl hact
    cases ds with
    | nil => exact ⟨[], x, xv, by simp [Mlp.forward], by simpa using hx, hxm, ⟨[], by simp [runOps]⟩, fun _ _ _ => rfl⟩
    | cons d ds => simp at hact
  | cons l ls ih =>
    intro ds h k q x xv a hx hxm hl hact
    cases ds with
    | nil => simp at hact
    | cons d ds =>
      obtain ⟨n, f⟩ := d
      simp only [List.map_cons, List.cons.injEq] at hact
      obtain ⟨h1, h2⟩ := hl
      obtain ⟨ns, r, v, e1, e2, e3, ⟨o1, e4⟩, e5⟩ := layer_run (f := f) hm hx hxm h1 hact.1
      obtain ⟨ms, r', v', f1, f2, f3, ⟨o2, f4⟩, f5⟩ := ih (h := h ++ ns) (q := q + 2) e2 e3 h2.append hact.2
      refine ⟨ns ++ ms, r', v', ?_, by rw [← List.append_assoc]; exact f2, f3, ⟨o1 ++ o2, ?_⟩, ?_⟩
      · simp only [Mlp.forward, List.foldlM_cons, e1, R.bind_ok]
        rw [← List.append_assoc]
        exact f1
      · rw [runOps_append, e4, ← List.append_assoc]
        exact f4
      · intro base hb ms'
        obtain ⟨y, z, yv, zv, g1, g2, g3, g4, g5, g6, g7, g8⟩ := e5 base hb (ms ++ ms')
        have happ : h ++ (ns ++ ms) ++ ms' = h ++ ns ++ (ms ++ ms') := by simp
        have happ2 : h ++ ns ++ (ms ++ ms') = h ++ ns ++ ms ++ ms' := by simp
        obtain ⟨hw0, -, wv, bv, hwv, hbv, hwm, hbr⟩ := h1
        rw [happ]
        refine ⟨hw0, y, z, r, yv, zv, g1, g2, g3, g4, g5, g6, g7, g8, ?_, ?_, ?_, ?_⟩
        · rw [List.append_assoc, shapeOf_append hx, hxm.1]
        · rw [List.append_assoc, shapeOf_append hwv, hwm.1]
        · rw [List.append_assoc, shapeOf_append hbv]
          exact hbr.1
        · rw [happ2]
          exact f5 base (by simp; omega) ms'

end RL
