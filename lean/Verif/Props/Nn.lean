import Verif.Props.Graph3
import Verif.Props.MatMul
import Verif.Props.Elementwise
import Verif.SpecNn
import Verif.Lemmas.Sgd

/-!
# Layers, networks, SGD (C44-C48)
-/

namespace RL

open Spec

variable {T : Type}

attribute [local instance] Test.intFn

/-! ## the linear layer (C44) -/

/-- C44: no activation leaves the tensor as it is. -/
theorem C44_identity : Acts (Activation.identity : Activation T) id := by
  intro h t v hv _ _
  exact ⟨h, t, rfl, by simpa using hv, [], by simp⟩

theorem acts_unary {f : T → T} {k : JvpKind} {act : Activation T}
    (ha : ∀ (h : Heap T) (t : Nat), act h t = do
      let n ← h.node t
      let val ← genericUnaryOp (.raw n.val) f
      return h.alloc { val, grad := none, gradFn := some { inputs := [t], kind := k } }) : Acts act f := by
  intro h t v hv wv _
  obtain ⟨n, hn, rfl⟩ := dataOf_eq.1 hv
  rw [ha]
  have e := genericUnaryOp_eq (x := .raw n.val) wv (.inl ⟨_, rfl⟩) f
  rw [elems_raw wv] at e
  simp only [Heap.node_eq_ok.2 hn, R.bind_ok, e]
  exact ⟨_, _, rfl, by simp [dataOf, TL.shape], [_], rfl⟩

/-- C44: `relu` as activation. -/
theorem C44_relu [Zero T] [LT T] [DecidableLT T] : Acts (reluT : Activation T) (fun x => if x < 0 then 0 else x) :=
  acts_unary (f := fun x => if x < 0 then 0 else x) fun _ _ => rfl

/-- C44: `tanh` as activation. -/
theorem C44_tanh [RealFn T] : Acts (tanhT : Activation T) RealFn.tanh := acts_unary fun _ _ => rfl

theorem Spec.Row.elem {v : Raw T} {n : Nat} {b : Nat → T} (hv : Row v n b) {i j : Nat} (hj : j < n) :
    Raw.elem? v (bproj v.shape [i, j]) = some (b j) := by
  obtain ⟨hs, hw, he⟩ := hv
  have : rowMajor v.shape (bproj v.shape [i, j]) = j := by
    have hj1 : n = 1 → j = 0 := by omega
    rcases hs with hs | hs
    · rw [hs]
      by_cases h1 : n = 1
      · simp [bproj, alignRight, rowMajor, h1, hj1 h1]
      · simp [bproj, alignRight, rowMajor, h1]
    · rw [hs]
      by_cases h1 : n = 1
      · simp [bproj, alignRight, rowMajor, h1, hj1 h1]
      · simp [bproj, alignRight, rowMajor, h1]
  unfold Raw.elem?
  rw [this]
  exact he j hj

/-- `x W + b` on data. -/
theorem affine_ok [Zero T] [Add T] [Mul T] {xv wv bv : Raw T} {m k n : Nat} {x w : Nat → Nat → T} {b : Nat → T}
    (hx : Matrix xv m k x) (hw : Matrix wv k n w) (hb : Row bv n b) (hm : 0 < m) (hn : 0 < n) :
    ∃ y z, bmmRaw (.raw xv) (.raw wv) = .ok y ∧ addRaw (.raw y) (.raw bv) = .ok z ∧ Matrix z m n (affine k x w b) := by
  obtain ⟨xs, xw, xe⟩ := hx
  obtain ⟨ws, ww, we⟩ := hw
  obtain ⟨y, e1, ys, yw, a, c, ha, hc, he⟩ := C18_matrix (.raw xv) (.raw wv) xw ww m k n xs ws
  have py : Pos y.shape := by rw [ys]; simp [Pos]; omega
  have pb : Pos bv.shape := by rcases hb.1 with h | h <;> rw [h] <;> simp [Pos] <;> omega
  have hcomp : Compatible y.shape bv.shape := by
    rcases hb.1 with h | h <;> rw [ys, h] <;> simp [Compatible, padLeft]
  have hbs : bshape y.shape bv.shape = [m, n] := by
    rcases hb.1 with h | h <;> rw [ys, h] <;> simp [bshape, padLeft] <;> omega
  obtain ⟨z, e2⟩ := (C11_add_accepts y bv yw hb.2.1 py pb).1 hcomp
  obtain ⟨zs, zw, ze⟩ := C10_add (.raw y) (.raw bv) yw hb.2.1 py pb z e2
  rw [TL.shape_raw, TL.shape_raw, hbs] at zs
  refine ⟨y, z, e1, e2, zs, zw, fun i hi j hj => ?_⟩
  have hin : InRange z.shape [i, j] := by rw [zs]; exact inRange2.2 ⟨hi, hj⟩
  obtain ⟨p, q, hp, hq, hz⟩ := ze [i, j] hin
  have hpy : bproj y.shape [i, j] = [i, j] := by
    have h1 : m = 1 → i = 0 := by omega
    have h2 : n = 1 → j = 0 := by omega
    rw [ys]
    by_cases hm1 : m = 1 <;> by_cases hn1 : n = 1 <;> simp [bproj, alignRight, hm1, hn1, h1, h2]
  simp only [TL.shape_raw, elem?] at hp hq
  rw [hb.elem hj] at hq
  cases hq
  rw [hpy] at hp
  obtain ⟨v, hv1, hv2⟩ := Raw.get_ok yw (idx := [i, j]) (by rw [ys]; exact inRange2.2 ⟨hi, hj⟩)
  rw [he i j hi hj] at hv2
  have hv : p = (List.range k).foldl (fun acc kk => acc + a i kk * c kk j) 0 := by
    have := hv1.symm.trans hp
    rw [← Option.some.inj this]
    exact (Except.ok.inj hv2).symm
  obtain ⟨u, hu1, hu2⟩ := Raw.get_ok zw hin
  rw [hz] at hu2
  rw [hu1, ← Except.ok.inj hu2, hv]
  unfold affine
  congr 2
  refine List.foldl_ext _ _ _ fun acc kk hkk => ?_
  have hk := List.mem_range.1 hkk
  have h1 := (ha i kk hi hk).symm.trans (xe i hi kk hk)
  have h2 := (hc kk j hk hj).symm.trans (we kk hk j hj)
  rw [Option.some.inj h1, Option.some.inj h2]

section
variable [Zero T] [Add T] [Mul T]

theorem Spec.dataOf_append {h ns : Heap T} {t : Nat} {v : Raw T} (hv : dataOf h t = some v) : dataOf (h ++ ns) t = some v := by
  obtain ⟨n, hn, rfl⟩ := dataOf_eq.1 hv
  exact dataOf_eq.2 ⟨n, by rw [List.getElem?_append_left (getElem?_lt hn)]; exact hn, rfl⟩

/-- C44: a layer with `k` x `n` weights and a bias of shape `[n]` or `[1, n]`, applied to an `m` x `k` batch, succeeds, leaves all
existing tensors alone and returns the `m` x `n` matrix of `φ (sum_kk x(i,kk) W(kk,j) + b(j))`. -/
theorem C44_linear (h : Heap T) (layer : Linear T) (s : LayerFn T) (x : Nat) (xv : Raw T) (m k : Nat) (a : Nat → Nat → T)
    (hm : 0 < m) (hx : dataOf h x = some xv) (hxm : Matrix xv m k a) (hl : LayerIs h k layer s) :
    ∃ h' r v, layer.forward h x = .ok (h', r) ∧ dataOf h' r = some v ∧
      Matrix v m s.width (fun i j => s.φ (affine k a s.w s.b i j)) ∧ ∃ ns, h' = h ++ ns := by
  obtain ⟨hw0, hact, wv, bv, hwv, hbv, hwm, hbr⟩ := hl
  obtain ⟨y, z, e1, e2, zs, zw, ze⟩ := affine_ok hxm hwm hbr hm hw0
  obtain ⟨xn, hxn, rfl⟩ := dataOf_eq.1 hx
  obtain ⟨wn, hwn, rfl⟩ := dataOf_eq.1 hwv
  obtain ⟨bn, hbn, rfl⟩ := dataOf_eq.1 hbv
  set yn : Node T := ⟨y, none, some ⟨[x, layer.weights], .bmm⟩⟩ with hyn
  set zn : Node T := ⟨z, none, some ⟨[h.length, layer.bias], .add⟩⟩ with hzn
  have f1 : bmmT h x layer.weights = .ok (h ++ [yn], h.length) := by
    simp [bmmT, Heap.node_eq_ok.2 hxn, Heap.node_eq_ok.2 hwn, e1, Heap.alloc, hyn]
  have hyn' : (h ++ [yn])[h.length]? = some yn := by simp
  have hbn' : (h ++ [yn])[layer.bias]? = some bn := by rw [List.getElem?_append_left (getElem?_lt hbn)]; exact hbn
  have f2 : addT (h ++ [yn]) h.length layer.bias = .ok (h ++ [yn] ++ [zn], h.length + 1) := by
    have : addRaw (.raw yn.val) (.raw bn.val) = .ok z := e2
    simp [addT, Heap.node_eq_ok.2 hyn', Heap.node_eq_ok.2 hbn', this, Heap.alloc, hzn]
  have hz : dataOf (h ++ [yn] ++ [zn]) (h.length + 1) = some z := by simp [dataOf, hzn]
  obtain ⟨h', r, g1, g2, ns, g3⟩ := hact _ _ _ hz zw (by rw [zs]; simp [Pos]; omega)
  refine ⟨h', r, _, ?_, g2, ⟨zs, ?_, ?_⟩, [yn] ++ [zn] ++ ns, by rw [g3]; simp⟩
  · simp only [Linear.forward, f1, R.bind_ok, f2, g1]
  · simpa [WF] using zw
  · intro i hi j hj
    have := ze i hi j hj
    simp only [Raw.elem?, List.getElem?_map] at this ⊢
    rw [this]
    rfl

/-- C44: a layer made by `new` from `k` x `n` weights and a bias applies the given activation to `x W + b`, and returns `x W + b`
itself if no activation is given. -/
theorem C44_new (h : Heap T) (x w b : Nat) (xv wv bv : Raw T) (m k n : Nat) (a c : Nat → Nat → T) (d : Nat → T) (hm : 0 < m) (hn : 0 < n)
    (hx : dataOf h x = some xv) (hw : dataOf h w = some wv) (hb : dataOf h b = some bv)
    (hxm : Matrix xv m k a) (hwm : Matrix wv k n c) (hbr : Row bv n d) :
    (∃ h' r v, (Linear.new w b none).forward h x = .ok (h', r) ∧ dataOf h' r = some v ∧ Matrix v m n (affine k a c d)) ∧
    ∀ (f : Activation T) (φ : T → T), Acts f φ →
      ∃ h' r v, (Linear.new w b (some f)).forward h x = .ok (h', r) ∧ dataOf h' r = some v ∧
        Matrix v m n (fun i j => φ (affine k a c d i j)) := by
  constructor
  · obtain ⟨h', r, v, e1, e2, e3, _⟩ := C44_linear h (Linear.new w b none) ⟨n, c, d, id⟩ x xv m k a hm hx hxm
      ⟨hn, C44_identity, wv, bv, hw, hb, hwm, hbr⟩
    exact ⟨h', r, v, e1, e2, e3⟩
  · intro f φ hf
    obtain ⟨h', r, v, e1, e2, e3, _⟩ := C44_linear h (Linear.new w b (some f)) ⟨n, c, d, φ⟩ x xv m k a hm hx hxm
      ⟨hn, hf, wv, bv, hw, hb, hwm, hbr⟩
    exact ⟨h', r, v, e1, e2, e3⟩

end

/-- C44, test: two rows, three inputs, two outputs, `relu`. -/
example : (do
    let h ← runOps [] [Op.new [1, 2, 3, -4, -5, -6] [2, 3], .new [1, 0, 0, 1, 1, 1] [3, 2], .new [10, 20] [2]]
    let (h, r) ← (Linear.new 1 2 (some reluT)).forward h 0
    return dataOf h r) = (.ok (some ⟨[14, 25, 0, 9], [2, 2]⟩) : R (Option (Raw Int))) := by decide +kernel

/-- C44, test: the hypotheses are met by a layer without activation and a bias of shape `[1, 2]`. -/
example : LayerIs ([leafNode ⟨[1, 0, 0, 1], [2, 2]⟩, leafNode ⟨[10, 20], [1, 2]⟩] : Heap Int) 2 (Linear.new 0 1 none)
    ⟨2, fun i j => if i = j then 1 else 0, fun j => 10 * (j + 1), id⟩ := by
  refine ⟨by decide, C44_identity, _, _, rfl, rfl, ⟨rfl, rfl, ?_⟩, .inr rfl, rfl, ?_⟩
  · intro i hi j hj
    match i, j, hi, hj with
    | 0, 0, _, _ => rfl
    | 0, 1, _, _ => rfl
    | 1, 0, _, _ => rfl
    | 1, 1, _, _ => rfl
  · intro j hj
    match j, hj with
    | 0, _ => rfl
    | 1, _ => rfl

/-! ## the network (C45) -/

section
variable [Zero T] [Add T] [Mul T]

/-- C45: a network applies its first layer, then the network of the remaining layers; the empty network returns its input. -/
theorem C45_compose (h : Heap T) (x : Nat) (l1 l2 : List (Linear T)) :
    (⟨[]⟩ : Mlp T).forward h x = .ok (h, x) ∧
    (⟨l1 ++ l2⟩ : Mlp T).forward h x = (do
      let (h', y) ← (⟨l1⟩ : Mlp T).forward h x
      (⟨l2⟩ : Mlp T).forward h' y) := by
  refine ⟨rfl, ?_⟩
  simp only [Mlp.forward, List.foldlM_append]

theorem Spec.LayersAre.append {h ns : Heap T} : ∀ {ls : List (Linear T)} {ss : List (LayerFn T)} {k : Nat}, LayersAre h k ls ss →
    LayersAre (h ++ ns) k ls ss := by
  intro ls
  induction ls with
  | nil => intro ss k hl; cases ss with
    | nil => trivial
    | cons => exact hl
  | cons l ls ih =>
    intro ss k hl
    cases ss with
    | nil => exact hl
    | cons s ss =>
      obtain ⟨⟨h1, h2, wv, bv, h3, h4, h5⟩, h6⟩ := hl
      exact ⟨⟨h1, h2, wv, bv, dataOf_append h3, dataOf_append h4, h5⟩, ih h6⟩

/-- C45: with consistent sizes a network of any depth succeeds on a batch of `m` rows, leaves all existing tensors alone, and returns
`m` rows of the last layer's width holding the composition of the layers. -/
theorem C45_forward (mlp : Mlp T) (ss : List (LayerFn T)) (h : Heap T) (x : Nat) (xv : Raw T) (m k : Nat) (a : Nat → Nat → T)
    (hm : 0 < m) (hx : dataOf h x = some xv) (hxm : Matrix xv m k a) (hl : LayersAre h k mlp.layers ss) :
    ∃ h' r v, mlp.forward h x = .ok (h', r) ∧ dataOf h' r = some v ∧ Matrix v m (outWidth k ss) (netValue k ss a) ∧
      ∃ ns, h' = h ++ ns := by
  obtain ⟨ls⟩ := mlp
  simp only at hl
  induction ls generalizing ss h x xv k a with
  | nil =>
    cases ss with
    | nil => exact ⟨h, x, xv, rfl, hx, hxm, [], by simp⟩
    | cons => exact hl.elim
  | cons l ls ih =>
    cases ss with
    | nil => exact hl.elim
    | cons s ss =>
      obtain ⟨h1, h2⟩ := hl
      obtain ⟨h', r, v, e1, e2, e3, ns, rfl⟩ := C44_linear h l s x xv m k a hm hx hxm h1
      obtain ⟨h'', r', v', f1, f2, f3, ms, rfl⟩ := ih ss (h ++ ns) r v s.width _ e2 e3 h2.append
      refine ⟨_, r', v', ?_, f2, f3, ns ++ ms, by simp⟩
      simp only [Mlp.forward, List.foldlM_cons, e1, R.bind_ok]
      exact f1

end

/-- C45, test: two layers. -/
example : (do
    let h ← runOps [] [Op.new [1, 2] [1, 2], .new [1, 0, 0, -1] [2, 2], .new [1, 1] [1, 2], .new [3, 5] [2, 1], .new [7] [1]]
    let (h, r) ← (⟨[Linear.new 1 2 (some reluT), Linear.new 3 4 none]⟩ : Mlp Int).forward h 0
    return dataOf h r) = (.ok (some ⟨[13], [1, 1]⟩) : R (Option (Raw Int))) := by decide +kernel

/-! ## parameter lists (C46) -/

/-- C46: the parameters are weights and bias of the first layer, then those of the remaining layers. -/
theorem C46_params (l : Linear T) (ls : List (Linear T)) :
    (⟨[]⟩ : Mlp T).params = [] ∧ (⟨l :: ls⟩ : Mlp T).params = l.weights :: l.bias :: (⟨ls⟩ : Mlp T).params := ⟨rfl, rfl⟩

/-- Same layers (same activations), other parameters. -/
def Spec.withParams (ls : List (Linear T)) (ps : List Nat) : List (Linear T) :=
  match ls, ps with
  | l :: ls, w :: b :: ps => { l with weights := w, bias := b } :: withParams ls ps
  | _, _ => []

theorem Linear.updateParams_two (l : Linear T) (w b : Nat) : l.updateParams [w, b] = .ok { l with weights := w, bias := b } := rfl

theorem mlpUpdateLoop_ok : ∀ (ls : List (Linear T)) (ps extra : List Nat) (acc : List (Linear T)), ps.length = 2 * ls.length →
    mlpUpdateLoop ls.reverse (ps.reverse ++ extra) acc = .ok (withParams ls ps ++ acc) := by
  intro ls
  induction ls using List.reverseRecOn with
  | nil =>
    intro ps extra acc hl
    rfl
  | append_singleton ls l ih =>
    intro ps extra acc hl
    obtain ⟨ps', w, b, rfl⟩ : ∃ ps' w b, ps = ps' ++ [w, b] := by
      have h2 : (ps.drop (2 * ls.length)).length = 2 := by simp [hl]; omega
      obtain ⟨w, b, hwb⟩ := List.length_eq_two.1 h2
      exact ⟨ps.take (2 * ls.length), w, b, by rw [← hwb, List.take_append_drop]⟩
    have hl' : ps'.length = 2 * ls.length := by simp at hl; omega
    have hw : withParams (ls ++ [l]) (ps' ++ [w, b]) = withParams ls ps' ++ [{ l with weights := w, bias := b }] := by
      clear ih hl
      induction ls generalizing ps' with
      | nil =>
        have : ps' = [] := List.length_eq_zero_iff.1 (by simpa using hl')
        subst this
        rfl
      | cons l' ls ihl =>
        match ps', hl' with
        | w' :: b' :: ps', hl' =>
          simp only [List.cons_append, withParams]
          rw [ihl ps' (by simp at hl'; omega)]
    rw [hw]
    simp only [List.reverse_append, List.reverse_cons, List.reverse_nil, List.nil_append, List.cons_append, mlpUpdateLoop,
      List.head?_cons, List.tail_cons, unwrapO, R.bind_ok, Linear.updateParams_two]
    rw [ih ps' extra _ hl']
    simp

/-- C46: a list of the right length replaces all parameters, in order, and keeps the number of layers and the activations. -/
theorem C46_update (mlp : Mlp T) (ps : List Nat) (hl : ps.length = 2 * mlp.layers.length) :
    ∃ mlp', mlp.updateParams ps = .ok mlp' ∧ mlp'.params = ps ∧
      mlp'.layers.map (·.activation) = mlp.layers.map (·.activation) := by
  refine ⟨⟨withParams mlp.layers ps⟩, ?_, ?_⟩
  · have := mlpUpdateLoop_ok mlp.layers ps [] [] hl
    simp only [List.append_nil] at this
    simp [Mlp.updateParams, this]
  · obtain ⟨ls⟩ := mlp
    simp only at hl
    induction ls generalizing ps with
    | nil =>
      have : ps = [] := List.length_eq_zero_iff.1 (by simpa using hl)
      subst this
      exact ⟨rfl, rfl⟩
    | cons l ls ih =>
      match ps, hl with
      | w :: b :: ps, hl =>
        obtain ⟨h1, h2⟩ := ih ps (by simp at hl; omega)
        simp only [withParams]
        constructor
        · rw [(C46_params _ _).2, h1]
        · simp only [List.map_cons, h2]

/-- C46: writing back the parameters changes nothing. -/
theorem C46_roundtrip (mlp : Mlp T) : mlp.updateParams mlp.params = .ok mlp := by
  obtain ⟨ls⟩ := mlp
  have hlen : (⟨ls⟩ : Mlp T).params.length = 2 * ls.length := by
    induction ls with
    | nil => rfl
    | cons l ls ih => rw [(C46_params _ _).2]; simp [ih]; omega
  have hw : withParams ls (⟨ls⟩ : Mlp T).params = ls := by
    clear hlen
    induction ls with
    | nil => rfl
    | cons l ls ih => rw [(C46_params _ _).2, withParams, ih]
  have := mlpUpdateLoop_ok ls (⟨ls⟩ : Mlp T).params [] [] hlen
  rw [hw] at this
  simp only [List.append_nil] at this
  simp [Mlp.updateParams, this]

/-- C46: a list that is too short panics. -/
theorem C46_short (mlp : Mlp T) (ps : List Nat) (hl : ps.length < 2 * mlp.layers.length) : Panics (mlp.updateParams ps) := by
  have key : ∀ (ls : List (Linear T)) (ps : List Nat) (acc : List (Linear T)), ps.length < 2 * ls.length →
      mlpUpdateLoop ls ps acc = .error (.panic .unwrap) := by
    intro ls
    induction ls with
    | nil => intro ps acc h; simp at h
    | cons l ls ih =>
      intro ps acc h
      match ps, h with
      | [], _ => rfl
      | [_], _ => rfl
      | b :: w :: ps, h =>
        simp only [mlpUpdateLoop, List.head?_cons, List.tail_cons, unwrapO, R.bind_ok, Linear.updateParams_two]
        exact ih ps _ (by simp at h; omega)
  refine ⟨.unwrap, ?_, by simp⟩
  simp [Mlp.updateParams, key mlp.layers.reverse ps.reverse [] (by simpa using hl)]

/-- C46: in a list that is too long the surplus at the front is ignored without notice. -/
theorem C46_long (mlp : Mlp T) (extra ps : List Nat) (hl : ps.length = 2 * mlp.layers.length) :
    mlp.updateParams (extra ++ ps) = mlp.updateParams ps := by
  have h1 := mlpUpdateLoop_ok mlp.layers ps extra.reverse [] hl
  have h2 := mlpUpdateLoop_ok mlp.layers ps [] [] hl
  rw [List.append_nil ps.reverse] at h2
  simp only [Mlp.updateParams, List.reverse_append, h1, h2]

/-- C46 for a single layer: the first two parameters are used; fewer panic. -/
theorem C46_layer (l : Linear T) :
    l.params = [l.weights, l.bias] ∧ l.updateParams l.params = .ok l ∧
    (∀ w b ps, ∃ l', l.updateParams (w :: b :: ps) = .ok l' ∧ l'.params = [w, b] ∧ l'.activation = l.activation) ∧
    (∀ ps, ps.length < 2 → Panics (l.updateParams ps)) := by
  refine ⟨rfl, rfl, fun w b ps => ⟨_, rfl, rfl, rfl⟩, fun ps hp => ?_⟩
  match ps, hp with
  | [], _ => exact ⟨.index, rfl, by simp⟩
  | [_], _ => exact ⟨.index, rfl, by simp⟩

/-- C46, test. -/
example : ∃ m, (⟨[Linear.new 1 2 (some reluT), Linear.new 3 4 none]⟩ : Mlp Int).updateParams [10, 20, 30, 40] = .ok m ∧
    m.params = [10, 20, 30, 40] := ⟨_, rfl, rfl⟩

/-! ## the SGD step (C47) -/

/-- `p - lr * g`, elementwise. -/
def Spec.sgdUpdate [Add T] [Mul T] [Neg T] (lr : T) (p g : Raw T) : Raw T :=
  ⟨List.zipWith (fun x d => x + -(lr * d)) p.array g.array, p.shape⟩

/-- The tensor is well-formed, and its gradient, if there is one, has its shape (see `C38_partial`). -/
def Spec.ParamOk (h : Heap T) (p : Nat) : Prop :=
  ∃ v, dataOf h p = some v ∧ WF v ∧ Pos v.shape ∧ ∀ g, gradOf h p = some g → g.shape = v.shape ∧ WF g

section
variable [Zero T] [One T] [Add T] [Mul T] [Sub T] [Neg T] [LT T] [DecidableLT T] [LE T] [DecidableLE T] [RealFn T]

theorem gradOf_inv {h : Heap T} {p : Nat} {g : Raw T} (hg : gradOf h p = some g) :
    ∃ (n gn : Node T) (i : Nat), h[p]? = some n ∧ n.grad = some i ∧ h[i]? = some gn ∧ gn.val = g := by
  unfold gradOf at hg
  obtain ⟨n, hn, hg⟩ := Option.bind_eq_some_iff.1 hg
  obtain ⟨i, hi, hg⟩ := Option.bind_eq_some_iff.1 hg
  obtain ⟨gn, hgn, hg⟩ := Option.map_eq_some_iff.1 hg
  exact ⟨n, gn, i, hn, hi, hgn, hg⟩

theorem sgdParam_ok {h : Heap T} {s p : Nat} {lr : T} {v g : Raw T} (hs : dataOf h s = some (Raw.scalar lr)) (hv : dataOf h p = some v)
    (hg : gradOf h p = some g) (wv : WF v) (wg : WF g) (hp : Pos v.shape) (hsh : g.shape = v.shape) :
    ∃ delta neg, sgdParam h s p = .ok (h ++ [leafNode delta, ⟨neg, none, some ⟨[h.length], .neg⟩⟩,
      ⟨sgdUpdate lr v g, none, some ⟨[p, h.length + 1], .add⟩⟩], h.length + 2) := by
  obtain ⟨n, gn, i, hn, hi, hgn, rfl⟩ := gradOf_inv hg
  obtain ⟨n', hn', rfl⟩ := dataOf_eq.1 hv
  rw [hn] at hn'
  cases hn'
  obtain ⟨sn, hsn, hsv⟩ := dataOf_eq.1 hs
  refine ⟨_, _, sgdParam_mk (delta := ⟨gn.val.array.map (lr * ·), gn.val.shape⟩)
    (neg := ⟨(gn.val.array.map (lr * ·)).map (fun v => -v), gn.val.shape⟩) hn hi hgn hsn ?_ ?_ ?_⟩
  · rw [hsv]
    simp [mulRaw, Raw.scalar, idxR, TL.leftScalarMul, TL.tensor, TL.shape]
  · exact negRaw_raw (by simpa [WF] using wg)
  · rw [addRaw_same (r := ⟨(gn.val.array.map (lr * ·)).map (fun v => -v), gn.val.shape⟩) wv (by simpa [WF] using wg) hsh.symm hp]
    simp [sgdUpdate, List.map_map, List.zipWith_map_right, Function.comp_def]

theorem sgdParams_ok {s : Nat} {lr : T} : ∀ {ps : List Nat} {h : Heap T}, dataOf h s = some (Raw.scalar lr) →
    (∀ p ∈ ps, ParamOk h p ∧ gradOf h p ≠ none) → ∃ ns qs, sgdParams h s ps = .ok (h ++ ns, qs) ∧
      List.Forall₂ (fun p q => ∃ v g, dataOf h p = some v ∧ gradOf h p = some g ∧ h.length ≤ q ∧
        dataOf (h ++ ns) q = some (sgdUpdate lr v g) ∧ gradOf (h ++ ns) q = none) ps qs := by
  intro ps
  induction ps with
  | nil => intro h _ _; exact ⟨[], [], by simp [sgdParams], .nil⟩
  | cons p ps ih =>
    intro h hs hps
    obtain ⟨⟨v, hv, wv, pv, hfit⟩, hgn⟩ := hps p (by simp)
    obtain ⟨g, hg⟩ := Option.ne_none_iff_exists'.1 hgn
    obtain ⟨hsh, wg⟩ := hfit g hg
    obtain ⟨delta, neg, e1⟩ := sgdParam_ok hs hv hg wv wg pv hsh
    have hgapp : ∀ (ns : Heap T) {r : Nat}, (∀ g, gradOf h r = some g → gradOf (h ++ ns) r = some g) := by
      intro ns r g hg
      obtain ⟨n, gn, i, hn, hi, hgn, rfl⟩ := gradOf_inv hg
      exact gradOf_some (by rw [List.getElem?_append_left (getElem?_lt hn)]; exact hn) hi
        (by rw [List.getElem?_append_left (getElem?_lt hgn)]; exact hgn)
    obtain ⟨ns, qs, e2, h2⟩ := ih (h := h ++ [leafNode delta, ⟨neg, none, some ⟨[h.length], .neg⟩⟩,
      ⟨sgdUpdate lr v g, none, some ⟨[p, h.length + 1], .add⟩⟩]) (dataOf_append hs) (by
      intro r hr
      obtain ⟨⟨v', hv', wv', pv', hfit'⟩, hgn'⟩ := hps r (by simp [hr])
      obtain ⟨g', hg'⟩ := Option.ne_none_iff_exists'.1 hgn'
      refine ⟨⟨v', dataOf_append hv', wv', pv', fun g'' hg'' => ?_⟩, by rw [hgapp _ _ hg']; simp⟩
      rw [hgapp _ _ hg'] at hg''
      cases hg''
      exact hfit' _ hg')
    refine ⟨_, (h.length + 2) :: qs, by rw [sgdParams_cons, e1, R.bind_ok]; simp only [e2, R.bind_ok]; rw [List.append_assoc]; rfl,
      .cons ⟨v, g, hv, hg, by omega, ?_, ?_⟩ ?_⟩
    · rw [← List.append_assoc]
      refine dataOf_append ?_
      simp [dataOf]
    · refine gradOf_none (n := ⟨sgdUpdate lr v g, none, some ⟨[p, h.length + 1], .add⟩⟩) ?_ rfl
      rw [← List.append_assoc, List.getElem?_append_left (by simp)]
      simp
    · have hmem : ∀ r ∈ ps, ∃ v' g', dataOf h r = some v' ∧ gradOf h r = some g' := by
        intro r hr
        obtain ⟨⟨v', hv', _⟩, hgn'⟩ := hps r (by simp [hr])
        obtain ⟨g', hg'⟩ := Option.ne_none_iff_exists'.1 hgn'
        exact ⟨v', g', hv', hg'⟩
      clear ih hps e2
      rw [← List.append_assoc]
      induction h2 with
      | nil => exact .nil
      | @cons r q rs qs h3 _ ih =>
        refine .cons ?_ (ih fun r hr => hmem r (by simp [hr]))
        obtain ⟨v1, g1, h5, h6, h7, h8, h9⟩ := h3
        obtain ⟨v2, g2, h10, h11⟩ := hmem r (by simp)
        rw [dataOf_append h10] at h5
        cases h5
        rw [hgapp _ _ h11] at h6
        cases h6
        exact ⟨_, _, h10, h11, by simp at h7; omega, h8, h9⟩

theorem sgdParams_panics {s : Nat} {lr : T} : ∀ {ps : List Nat} {h : Heap T}, dataOf h s = some (Raw.scalar lr) →
    (∀ p ∈ ps, ParamOk h p) → (∀ (p : Nat) (n : Node T), h[p]? = some n → ∀ g, n.grad = some g → g < h.length) → (∃ p ∈ ps, gradOf h p = none) →
    sgdParams h s ps = .error (.panic .unwrap) := by
  intro ps
  induction ps with
  | nil => intro h _ _ _ hex; obtain ⟨p, hp, _⟩ := hex; simp at hp
  | cons p ps ih =>
    intro h hs hps hgood hex
    obtain ⟨v, hv, wv, pv, hfit⟩ := hps p (by simp)
    rw [sgdParams_cons]
    cases hg : gradOf h p with
    | none =>
      obtain ⟨n, hn, rfl⟩ := dataOf_eq.1 hv
      have hng : n.grad = none := by
        by_contra hne
        obtain ⟨g, hg'⟩ := Option.ne_none_iff_exists'.1 hne
        rw [gradOf_some hn hg' (List.getElem?_eq_getElem (hgood p n hn g hg'))] at hg
        cases hg
      simp [sgdParam, gradT, Heap.node_eq_ok.2 hn, hng, unwrapO, R.panic]
    | some g =>
      obtain ⟨hsh, wg⟩ := hfit g hg
      obtain ⟨delta, neg, e1⟩ := sgdParam_ok hs hv hg wv wg pv hsh
      have hkeep : ∀ (ns : Heap T) {r : Nat} {w : Raw T}, dataOf h r = some w → gradOf (h ++ ns) r = gradOf h r := by
        intro ns r w hw
        obtain ⟨n, hn, rfl⟩ := dataOf_eq.1 hw
        have hn' : (h ++ ns)[r]? = some n := by rw [List.getElem?_append_left (getElem?_lt hn)]; exact hn
        cases hgr : n.grad with
        | none => rw [gradOf_none hn hgr, gradOf_none hn' hgr]
        | some g =>
          have hlt := hgood r n hn g hgr
          have hgg := List.getElem?_eq_getElem hlt
          rw [gradOf_some hn hgr hgg, gradOf_some hn' hgr (by rw [List.getElem?_append_left hlt]; exact hgg)]
      rw [e1, R.bind_ok]
      simp only
      rw [ih (dataOf_append hs) ?_ ?_ ?_]
      · rfl
      · intro r hr
        obtain ⟨v', hv', wv', pv', hfit'⟩ := hps r (by simp [hr])
        exact ⟨v', dataOf_append hv', wv', pv', by rw [hkeep _ hv']; exact hfit'⟩
      · intro r n hn g' hg'
        rcases Nat.lt_or_ge r h.length with hr | hr
        · rw [List.getElem?_append_left hr] at hn
          have := hgood r n hn g' hg'
          simp
          omega
        · rw [List.getElem?_append_right hr] at hn
          have hm := List.mem_of_getElem? hn
          simp at hm
          rcases hm with rfl | rfl | rfl <;> cases hg'
      · obtain ⟨r, hr, hrg⟩ := hex
        rcases List.mem_cons.1 hr with rfl | hr
        · rw [hg] at hrg; cases hrg
        · obtain ⟨v', hv', _⟩ := hps r (by simp [hr])
          exact ⟨r, hr, by rw [hkeep _ hv']; exact hrg⟩

/-- C47: with a scalar step size and a gradient on every parameter, `sgd_step` succeeds, changes no existing tensor, and puts in
place of every parameter, in order, a new tensor of the same shape holding `p - lr * grad(p)`, without gradient; number of layers
and activations stay. No law of arithmetic is used, `p - lr * g` is computed as `p + -(lr * g)`. -/
theorem C47_step (mlp : Mlp T) (h : Heap T) (s : Nat) (lr : T) (hs : dataOf h s = some (Raw.scalar lr))
    (hp : ∀ p ∈ mlp.params, ParamOk h p) (hg : ∀ p ∈ mlp.params, gradOf h p ≠ none) :
    ∃ h' mlp', mlp.sgdStep h s = .ok (h', mlp') ∧ (∃ ns, h' = h ++ ns) ∧
      List.Forall₂ (fun p q => ∃ v g, dataOf h p = some v ∧ gradOf h p = some g ∧ h.length ≤ q ∧
        dataOf h' q = some (sgdUpdate lr v g) ∧ gradOf h' q = none) mlp.params mlp'.params ∧
      mlp'.layers.map (·.activation) = mlp.layers.map (·.activation) := by
  obtain ⟨ns, qs, e1, h1⟩ := sgdParams_ok (ps := mlp.params) hs fun p hm => ⟨hp p hm, hg p hm⟩
  have hlen : mlp.params.length = 2 * mlp.layers.length := by
    obtain ⟨ls⟩ := mlp
    clear hp hg e1 h1
    induction ls with
    | nil => rfl
    | cons l ls ih => rw [(C46_params _ _).2]; simp at ih ⊢; omega
  obtain ⟨mlp', e2, h2, h3⟩ := C46_update mlp qs (by rw [← h1.length_eq, hlen])
  exact ⟨h ++ ns, mlp', by simp [Mlp.sgdStep, e1, e2], ⟨ns, rfl⟩, by rw [h2]; exact h1, h3⟩

/-- C47 for a single layer. -/
theorem C47_layer (l : Linear T) (h : Heap T) (s : Nat) (lr : T) (hs : dataOf h s = some (Raw.scalar lr))
    (hp : ∀ p ∈ l.params, ParamOk h p) (hg : ∀ p ∈ l.params, gradOf h p ≠ none) :
    ∃ h' l', l.sgdStep h s = .ok (h', l') ∧ (∃ ns, h' = h ++ ns) ∧
      List.Forall₂ (fun p q => ∃ v g, dataOf h p = some v ∧ gradOf h p = some g ∧ h.length ≤ q ∧
        dataOf h' q = some (sgdUpdate lr v g) ∧ gradOf h' q = none) l.params l'.params ∧ l'.activation = l.activation := by
  obtain ⟨ns, qs, e1, h1⟩ := sgdParams_ok (ps := l.params) hs fun p hm => ⟨hp p hm, hg p hm⟩
  match qs, h1 with
  | [w, b], h1 =>
    exact ⟨h ++ ns, { l with weights := w, bias := b }, by simp [Linear.sgdStep, e1, Linear.updateParams_two], ⟨ns, rfl⟩, h1, rfl⟩

end

/-- C47 over a ring: the new parameter is `p - lr * grad(p)`. -/
theorem C47_sub [Ring T] (lr : T) (p g : Raw T) :
    sgdUpdate lr p g = ⟨List.zipWith (fun x d => x - lr * d) p.array g.array, p.shape⟩ := by
  simp [sgdUpdate, sub_eq_add_neg]

/-- C47: it panics if some parameter has no gradient. -/
theorem C47_panics [Zero T] [One T] [Add T] [Mul T] [Sub T] [Neg T] [LT T] [DecidableLT T] [LE T] [DecidableLE T] [RealFn T]
    (mlp : Mlp T) (h : Heap T) (hr : Reachable h) (s : Nat) (lr : T) (hs : dataOf h s = some (Raw.scalar lr))
    (hp : ∀ p ∈ mlp.params, ParamOk h p) (hg : ∃ p ∈ mlp.params, gradOf h p = none) : Panics (mlp.sgdStep h s) := by
  refine ⟨.unwrap, ?_, by simp⟩
  have := sgdParams_panics hs hp (fun p n hn g hg => (hr.good p n hn).grad g hg) hg
  simp [Mlp.sgdStep, this]

/-- C47, test: forward, backward and one step on a layer without activation. -/
example : (do
    let h ← runOps [] [Op.new [1, 2] [1, 2], .new [3, 4] [2, 1], .new [5] [1]]
    let mlp : Mlp Int := ⟨[Linear.new 1 2 none]⟩
    let (h, r) ← mlp.forward h 0
    let h ← runOps h [.sum r, .backward (r + 2), .scalar 10]
    let (h, mlp) ← mlp.sgdStep h (h.length - 1)
    return mlp.params.map (dataOf h)) = (.ok [some ⟨[-7, -16], [2, 1]⟩, some ⟨[-5], [1]⟩] : R (List (Option (Raw Int)))) := by
  decide +kernel

/-- C47: the gradients have to have the shape of their parameters. `update_grad` accepts others, and then the step changes shapes. -/
theorem C47_misfit : ∃ h h' : Heap Int, ∃ mlp mlp' : Mlp Int, Reachable h ∧ mlp.params = [0, 1] ∧ dataOf h 0 = some ⟨[1], [1, 1]⟩ ∧
    gradOf h 0 = some ⟨[1, 2], [2]⟩ ∧ mlp.sgdStep h 3 = .ok (h', mlp') ∧ ∃ q ∈ mlp'.params, dataOf h' q = some ⟨[0, -1], [1, 2]⟩ := by
  obtain ⟨h, e, hh⟩ : ∃ h : Heap Int, runOps [] [.new [1] [1, 1], .new [1] [1], .new [1, 2] [2], .scalar 1, .updateGrad 0 2, .updateGrad 1 1] = .ok h ∧
      dataOf h 0 = some ⟨[1], [1, 1]⟩ ∧ gradOf h 0 = some ⟨[1, 2], [2]⟩ ∧
      ∃ h' mlp', (⟨[Linear.new 0 1 none]⟩ : Mlp Int).sgdStep h 3 = .ok (h', mlp') ∧ ∃ q ∈ mlp'.params, dataOf h' q = some ⟨[0, -1], [1, 2]⟩ :=
    ⟨_, rfl, by decide, by decide, _, _, rfl, 6, by decide, by decide⟩
  obtain ⟨h1, h2, h', mlp', h3, h4⟩ := hh
  exact ⟨h, h', _, mlp', ⟨_, e⟩, rfl, h1, h2, h3, h4⟩

/-- C47, test: a step without gradients panics. -/
example : ∃ h : Heap Int, runOps [] [.new [1] [1, 1], .new [1] [1], .scalar 1] = .ok h ∧
    (⟨[Linear.new 0 1 none]⟩ : Mlp Int).sgdStep h 2 = .error (.panic .unwrap) := ⟨_, rfl, rfl⟩

/-! ## what an SGD step keeps (C48) -/

section
variable [Zero T] [One T] [Add T] [Mul T] [Sub T] [Neg T] [LT T] [DecidableLT T] [LE T] [DecidableLE T] [RealFn T]

/-- C48, full statement. It is false: see `C48_false`. -/
def C48_statement (T : Type) [Zero T] [One T] [Add T] [Mul T] [Sub T] [Neg T] [LT T] [DecidableLT T] [LE T] [DecidableLE T]
    [RealFn T] : Prop :=
  ∀ (h h' : Heap T) (mlp mlp' : Mlp T) (s : Nat), Reachable h → mlp.sgdStep h s = .ok (h', mlp') →
    ∀ q ∈ mlp'.params, historyOf h' q = some none

/-- `n` training steps: between the SGD steps anything may be done. -/
inductive Spec.Trains : Nat → Heap T → Mlp T → Heap T → Mlp T → Prop where
  | start {h : Heap T} {mlp : Mlp T} : Trains 0 h mlp h mlp
  | step {n : Nat} {h h1 h2 h3 : Heap T} {mlp mlp1 mlp3 : Mlp T} {s : Nat} {ops : List (Op T)} : Trains n h mlp h1 mlp1 →
      runOps h1 ops = .ok h2 → mlp1.sgdStep h2 s = .ok (h3, mlp3) → Trains (n + 1) h mlp h3 mlp3

theorem sgdStep_inv {mlp mlp' : Mlp T} {h h' : Heap T} {s : Nat} (e : mlp.sgdStep h s = .ok (h', mlp')) :
    sgdParams h s mlp.params = .ok (h', mlp'.params) := by
  simp only [Mlp.sgdStep, R.bind_eq_ok] at e
  obtain ⟨⟨h1, qs⟩, e1, mlp1, e2, e3⟩ := e
  rw [R.pure_eq_ok] at e3
  cases e3
  rw [e1]
  have hlen : mlp.params.length = 2 * mlp.layers.length := by
    obtain ⟨ls⟩ := mlp
    clear e1 e2
    induction ls with
    | nil => rfl
    | cons l ls ih => rw [(C46_params _ _).2]; simp at ih ⊢; omega
  obtain ⟨mlp2, e4, h5, _⟩ := C46_update mlp qs (by rw [← (sgdParams_inv e1).2.length_eq, hlen])
  rw [e4] at e2
  cases e2
  rw [h5]

theorem Spec.Path.frame {h h' : Heap T} (hf : Frame h h') {l t : Nat} {p : List Nat} (hp : Path h l t p) : Path h' l t p := by
  induction hp with
  | one h1 h2 h3 =>
    obtain ⟨g, hg⟩ := hf.get h1
    exact .one hg h2 h3
  | cons h1 h2 h3 _ ih =>
    obtain ⟨g, hg⟩ := hf.get h1
    exact .cons hg h2 h3 ih

theorem Spec.Trains.reachable {n : Nat} {h h' : Heap T} {mlp mlp' : Mlp T} (ht : Trains n h mlp h' mlp') (hr : Reachable h) :
    Reachable h' ∧ Frame h h' := by
  induction ht with
  | start => exact ⟨hr, Frame.refl _⟩
  | step h1 e1 e2 ih =>
    obtain ⟨r1, f1⟩ := ih hr
    have r2 := r1.run e1
    obtain ⟨ops, e3⟩ := sgdParams_runOps (sgdStep_inv e2)
    exact ⟨r2.run e3, (f1.trans (runOps_frame r1.good e1).1).trans (runOps_frame r2.good e3).1⟩

/-- C48, what happens instead: after `n` steps the first input of every parameter is its predecessor, and so on back to the initial
parameter, whatever was done in between. -/
theorem C48_chain (n : Nat) (h h' : Heap T) (mlp mlp' : Mlp T) (hr : Reachable h) (ht : Trains n h mlp h' mlp') :
    List.Forall₂ (fun p q => (n = 0 ∧ p = q) ∨ (0 < n ∧ Path h' q p (List.replicate n 0))) mlp.params mlp'.params := by
  induction ht with
  | start => exact List.forall₂_same.2 fun x _ => .inl ⟨rfl, rfl⟩
  | @step n h h1 h2 h3 mlp mlp1 mlp3 s ops t1 e1 e2 ih =>
    have hh := ih hr
    obtain ⟨r1, _⟩ := t1.reachable hr
    have r2 := r1.run e1
    have hf1 := (runOps_frame r1.good e1).1
    have e3 := sgdStep_inv e2
    obtain ⟨⟨ns, rfl⟩, h4⟩ := sgdParams_inv e3
    have hf : Frame h1 (h2 ++ ns) := hf1.trans (Frame.append _ _)
    have key : ∀ (ps qs rs : List Nat), List.Forall₂ (fun p q => (n = 0 ∧ p = q) ∨ (0 < n ∧ Path h1 q p (List.replicate n 0))) ps qs →
        List.Forall₂ (fun p q => h2.length ≤ q ∧ ∃ v m, (h2 ++ ns)[q]? = some ⟨v, none, some ⟨[p, m], .add⟩⟩) qs rs →
        List.Forall₂ (fun p q => (n + 1 = 0 ∧ p = q) ∨ (0 < n + 1 ∧ Path (h2 ++ ns) q p (List.replicate (n + 1) 0))) ps rs := by
      intro ps
      induction ps with
      | nil =>
        intro qs rs a b
        cases a
        cases b
        exact .nil
      | cons p ps ihp =>
        intro qs rs a b
        cases a with
        | cons a1 a2 =>
        cases b with
        | cons b1 b2 =>
        refine .cons (.inr ⟨by omega, ?_⟩) (ihp _ _ a2 b2)
        obtain ⟨_, v, m, hq⟩ := b1
        rw [List.replicate_succ]
        rcases a1 with ⟨rfl, rfl⟩ | ⟨hn, hp⟩
        · exact .one hq rfl rfl
        · exact .cons hq rfl rfl (hp.frame hf)
    exact key _ _ _ hh h4

/-- C48: so every later `backward` on a loss that depends on a current parameter leaves a gradient on the corresponding initial
parameter (and on all in between). -/
theorem C48_reaches (n : Nat) (h h' h'' : Heap T) (mlp mlp' : Mlp T) (hr : Reachable h) (hn : 0 < n) (ht : Trains n h mlp h' mlp')
    (ops : List (Op T)) (k : Heap T) (e0 : runOps h' ops = .ok k) (l : Nat) (e : backward k l = .ok h'') (i : Nat) (p q : Nat)
    (hp : mlp.params[i]? = some p) (hq : mlp'.params[i]? = some q) (hl : l = q ∨ Ancestor k q l) : gradOf h'' p ≠ none := by
  obtain ⟨r1, _⟩ := ht.reachable hr
  have rk := r1.run e0
  have hc := C48_chain n h h' mlp mlp' hr ht
  obtain ⟨hpl, hp⟩ := List.getElem?_eq_some_iff.1 hp
  obtain ⟨hql, hq⟩ := List.getElem?_eq_some_iff.1 hq
  have hpath := hc.get hpl hql
  simp only [List.get_eq_getElem, hp, hq] at hpath
  have hpath : Path h' q p (List.replicate n 0) := by
    rcases hpath with ⟨h0, _⟩ | ⟨_, h0⟩
    · omega
    · exact h0
  have ha : Ancestor k p l := by
    have := (hpath.frame (runOps_frame r1.good e0).1).ancestor
    rcases hl with rfl | hl
    · exact this
    · exact this.trans hl
  obtain ⟨us, ps, u1, u2, u3, u4⟩ := backward_updates rk.good e
  obtain ⟨path, hpa⟩ := ha.path
  have hmem : p ∈ us.map Prod.fst := by
    rw [u2]
    exact List.mem_map.2 ⟨(p, path), (u4 p path).2 hpa, rfl⟩
  have hpk : p < k.length := by
    refine (C35_acyclic k rk p l ha).trans ?_
    cases hpa with
    | one h1 _ _ => exact getElem?_lt h1
    | cons h1 _ _ _ => exact getElem?_lt h1
  have hacc := applyUpdates_grad rk.good hpk u1
  refine gradAccum_isSome (.inr ?_) hacc
  obtain ⟨u, hu, hu'⟩ := List.mem_map.1 hmem
  have : u.2 ∈ gradContribs us p := List.mem_map.2 ⟨u, List.mem_filter.2 ⟨hu, by simp [hu']⟩, rfl⟩
  exact List.ne_nil_of_mem this

end

section

/-- The state after one backward pass of a layer with weight and bias `1` (tensors 1 and 2). -/
def C48_ops : List (Op Int) :=
  [.new [1] [1, 1], .new [1] [1, 1], .new [1] [1], .scalar 1, .updateGrad 1 0, .updateGrad 2 2]

/-- C48 is false: after one step the new weights have the old ones as an input. -/
theorem C48_false : ¬ C48_statement Int := by
  intro hst
  obtain ⟨h, e, hs⟩ : ∃ h, runOps [] C48_ops = .ok h ∧ ∃ h' mlp', (⟨[Linear.new 1 2 none]⟩ : Mlp Int).sgdStep h 3 = .ok (h', mlp') ∧
      ∃ q ∈ mlp'.params, historyOf h' q ≠ some none :=
    ⟨_, rfl, _, _, rfl, 6, by decide, by decide⟩
  obtain ⟨h', mlp', e', q, hq, hne⟩ := hs
  exact hne (hst h h' _ mlp' 3 ⟨_, e⟩ e' q hq)

/-- C48, test: the hypotheses of `C48_chain` and `C48_reaches` are met by two steps. -/
example : ∃ h h1 h2 h3 : Heap Int, ∃ mlp1 mlp3 : Mlp Int, runOps [] C48_ops = .ok h ∧
    (⟨[Linear.new 1 2 none]⟩ : Mlp Int).sgdStep h 3 = .ok (h1, mlp1) ∧
    runOps h1 [.updateGrad mlp1.params[0]! 0, .updateGrad mlp1.params[1]! 2] = .ok h2 ∧
    mlp1.sgdStep h2 3 = .ok (h3, mlp3) ∧ mlp3.params.length = 2 ∧ ∃ h4 h5, runOps h3 [.sum mlp3.params[0]!] = .ok h4 ∧
    backward h4 (h4.length - 1) = .ok h5 ∧ gradOf h5 1 ≠ gradOf h4 1 :=
  ⟨_, _, _, _, _, _, rfl, rfl, rfl, rfl, rfl, _, _, rfl, rfl, by decide +kernel⟩

end

end RL
