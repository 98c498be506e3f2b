import Verif.Lemmas.MachineFits2
import Verif.Lemmas.MachineNat
import Verif.Lemmas.TrainShapes

/-!
# Training with 64-bit `usize`

The training loop over any implementation of the operations, and how success carries over from one implementation to another.
-/

namespace RL

open Spec

variable {T : Type}

/-- The operations that training uses. -/
structure Kit (T : Type) where
  bmm : Heap T → Nat → Nat → R (Heap T × Nat)
  add : Heap T → Nat → Nat → R (Heap T × Nat)
  sub : Heap T → Nat → Nat → R (Heap T × Nat)
  abs : Heap T → Nat → R (Heap T × Nat)
  sum : Heap T → Nat → R (Heap T × Nat)
  act : Act → Activation T
  mul : Raw T → TL T → R (Raw T)
  backward : Heap T → Nat → R (Heap T)

namespace Kit

variable (K : Kit T)

def layer (l : Linear T) (h : Heap T) (x : Nat) : R (Heap T × Nat) := do
  let (h, y) ← K.bmm h x l.weights
  let (h, z) ← K.add h y l.bias
  l.activation h z

def forward (mlp : Mlp T) (h : Heap T) (x : Nat) : R (Heap T × Nat) := mlp.layers.foldlM (fun (h, prev) l => K.layer l h prev) (h, x)

def sgdParam (h : Heap T) (stepSize p : Nat) : R (Heap T × Nat) := do
  let g ← gradT h p
  let gn ← h.node g
  let s ← h.node stepSize
  let delta ← K.mul s.val (.raw gn.val)
  let (h, d) := h.leaf delta
  let (h, new) ← K.sub h p d
  let h ← zeroGrad h new
  return (h, new)

def sgdParams (h : Heap T) (stepSize : Nat) (params : List Nat) : R (Heap T × List Nat) :=
  params.foldlM (init := (h, ([] : List Nat))) (fun (h, new) p => do
    let (h, q) ← K.sgdParam h stepSize p
    return (h, new ++ [q]))

def sgdStep (mlp : Mlp T) (h : Heap T) (stepSize : Nat) : R (Heap T × Mlp T) := do
  let (h, newParams) ← K.sgdParams h stepSize mlp.params
  let mlp ← mlp.updateParams newParams
  return (h, mlp)

def loss (mlp : Mlp T) (h : Heap T) (input expected : Nat) : R (Heap T × Nat) := do
  let (h, res) ← K.forward mlp h input
  let (h, diff) ← K.sub h res expected
  let (h, dist) ← K.abs h diff
  K.sum h dist

def step (mlp : Mlp T) (h : Heap T) (input expected : Nat) (lr : T) : R (Heap T × Mlp T) := do
  let (h, loss) ← K.loss mlp h input expected
  let h ← K.backward h loss
  let (h, stepSize) := h.leaf (Raw.scalar lr)
  let (h, mlp) ← K.sgdStep mlp h stepSize
  let h ← zeroGrad h expected
  let h ← zeroGrad h input
  return (h, mlp)

def train (mlp : Mlp T) (h : Heap T) (input expected : Nat) (lr : T) : Nat → R (Heap T × Mlp T)
  | 0 => return (h, mlp)
  | n + 1 => do
    let (h, mlp) ← K.step mlp h input expected lr
    train mlp h input expected lr n

end Kit

section

variable [Zero T] [One T] [Add T] [Mul T] [Sub T] [Neg T] [LT T] [DecidableLT T] [LE T] [DecidableLE T] [RealFn T]

def natKit : Kit T := ⟨bmmT, addT, subT, absT, sumT, Act.run, mulRaw, backward⟩

def kitU (p : Profile) : Kit T where
  bmm := bmmTU p
  add := addTU p
  sub := subTU p
  abs h t := unaryTU p h t (fun x => RealFn.abs x) .abs
  sum h t := sumTU p h t (some { inputs := [t], kind := .sum })
  act := Act.runU p
  mul := mulRawU p
  backward := backwardU p

theorem natKit_train (mlp : Mlp T) (h : Heap T) (x y : Nat) (lr : T) (n : Nat) : natKit.train mlp h x y lr n = train mlp h x y lr n := by
  induction n generalizing mlp h with
  | zero => rfl
  | succ n ih =>
    rw [Kit.train, train]
    exact congrArg _ (funext fun r => ih r.2 r.1)

theorem kitU_train (p : Profile) (mlp : Mlp T) (h : Heap T) (x y : Nat) (lr : T) (n : Nat) : (kitU p).train mlp h x y lr n = trainU p mlp h x y lr n := by
  induction n generalizing mlp h with
  | zero => rfl
  | succ n ih =>
    rw [Kit.train, trainU]
    exact congrArg _ (funext fun r => ih r.2 r.1)

end

/-- Success carries over from `A` to `B` if `Q` holds for the resulting heap; `J` is an invariant of `A`. -/
structure Moves (A B : Kit T) (J Q : Heap T → Prop) : Prop where
  bmm : ∀ {h h' : Heap T} {l r i : Nat}, J h → A.bmm h l r = .ok (h', i) → J h' ∧ (Q h' → Q h ∧ B.bmm h l r = .ok (h', i))
  add : ∀ {h h' : Heap T} {l r i : Nat}, J h → A.add h l r = .ok (h', i) → J h' ∧ (Q h' → Q h ∧ B.add h l r = .ok (h', i))
  sub : ∀ {h h' : Heap T} {l r i : Nat}, J h → A.sub h l r = .ok (h', i) → J h' ∧ (Q h' → Q h ∧ B.sub h l r = .ok (h', i))
  abs : ∀ {h h' : Heap T} {t i : Nat}, J h → A.abs h t = .ok (h', i) → J h' ∧ (Q h' → Q h ∧ B.abs h t = .ok (h', i))
  sum : ∀ {h h' : Heap T} {t i : Nat}, J h → A.sum h t = .ok (h', i) → J h' ∧ (Q h' → Q h ∧ B.sum h t = .ok (h', i))
  act : ∀ {f : Act} {h h' : Heap T} {t i : Nat}, J h → A.act f h t = .ok (h', i) → J h' ∧ (Q h' → Q h ∧ B.act f h t = .ok (h', i))
  mul : ∀ {h : Heap T} {s g : Nat} {sn gn : Node T} {v : Raw T}, J h → Q h → h[s]? = some sn → h[g]? = some gn →
    A.mul sn.val (.raw gn.val) = .ok v → B.mul sn.val (.raw gn.val) = .ok v
  backward : ∀ {h h' : Heap T} {t : Nat}, J h → A.backward h t = .ok h' → J h' ∧ (Q h' → Q h ∧ B.backward h t = .ok h')
  leaf : ∀ {h : Heap T} (v : Raw T), J h → J (h.leaf v).1 ∧ (Q (h.leaf v).1 → Q h)
  zeroGrad : ∀ {h h' : Heap T} {t : Nat}, J h → zeroGrad h t = .ok h' → J h' ∧ (Q h' → Q h)

/-- The same layers, with the activations of `A` and of `B`. -/
def LayersMatch (A B : Kit T) (ls ls' : List (Linear T)) : Prop :=
  List.Forall₂ (fun l l' => l'.weights = l.weights ∧ l'.bias = l.bias ∧ ∃ f, l.activation = A.act f ∧ l'.activation = B.act f) ls ls'

section

variable {A B : Kit T} {J Q : Heap T → Prop} (M : Moves A B J Q)

include M

theorem Moves.forward : ∀ {ls ls' : List (Linear T)} {h h' : Heap T} {x r : Nat}, LayersMatch A B ls ls' → J h →
    A.forward ⟨ls⟩ h x = .ok (h', r) → J h' ∧ (Q h' → Q h ∧ B.forward ⟨ls'⟩ h x = .ok (h', r)) := by
  intro ls
  induction ls with
  | nil =>
    intro ls' h h' x r hm hj e
    cases hm
    cases e
    exact ⟨hj, fun hq => ⟨hq, rfl⟩⟩
  | cons l ls ih =>
    intro ls' h h' x r hm hj e
    cases hm with
    | cons hl hm =>
      obtain ⟨hw, hb, f, ha, ha'⟩ := hl
      simp only [Kit.forward, List.foldlM_cons] at e
      rw [R.bind_eq_ok] at e
      obtain ⟨⟨h3, z⟩, e1, e2⟩ := e
      simp only [Kit.layer, R.bind_eq_ok, Prod.exists] at e1
      obtain ⟨h1, a, e3, h2, b, e4, e5⟩ := e1
      rw [ha] at e5
      obtain ⟨j1, q1⟩ := M.bmm hj e3
      obtain ⟨j2, q2⟩ := M.add j1 e4
      obtain ⟨j3, q3⟩ := M.act j2 e5
      obtain ⟨j4, q4⟩ := ih hm j3 e2
      refine ⟨j4, fun hq => ?_⟩
      obtain ⟨r4, f4⟩ := q4 hq
      obtain ⟨r3, f3⟩ := q3 r4
      obtain ⟨r2, f2⟩ := q2 r3
      obtain ⟨r1, f1⟩ := q1 r2
      refine ⟨r1, ?_⟩
      simp only [Kit.forward, List.foldlM_cons, Kit.layer, hw, f1, R.bind_ok, hb, f2, ha', f3]
      exact f4

theorem Moves.sgdParam {h h' : Heap T} {s p q : Nat} (hj : J h) (e : A.sgdParam h s p = .ok (h', q)) :
    J h' ∧ (Q h' → Q h ∧ B.sgdParam h s p = .ok (h', q)) := by
  simp only [Kit.sgdParam, R.bind_eq_ok] at e
  obtain ⟨g, e1, gn, e2, sn, e3, v, e4, ⟨h2, new⟩, e5, h3, e6, e7⟩ := e
  rw [R.pure_eq_ok] at e7
  cases e7
  obtain ⟨j1, q1⟩ := M.leaf v hj
  obtain ⟨j2, q2⟩ := M.sub j1 e5
  obtain ⟨j3, q3⟩ := M.zeroGrad j2 e6
  refine ⟨j3, fun hq => ?_⟩
  obtain ⟨r2, f2⟩ := q2 (q3 hq)
  have r1 := q1 r2
  have f1 := M.mul hj r1 (Heap.node_eq_ok.1 e3) (Heap.node_eq_ok.1 e2) e4
  refine ⟨r1, ?_⟩
  simp only [Kit.sgdParam, e1, e2, e3, f1, R.bind_ok]
  rw [f2, R.bind_ok]
  simp only [e6, R.bind_ok]
  rfl

theorem Moves.sgdParams {s : Nat} : ∀ {ps : List Nat} {h h' : Heap T} {acc qs : List Nat}, J h →
    ps.foldlM (init := (h, acc)) (fun (h, new) p => do
      let (h, q) ← A.sgdParam h s p
      return (h, new ++ [q])) = .ok (h', qs) →
    J h' ∧ (Q h' → Q h ∧ ps.foldlM (init := (h, acc)) (fun (h, new) p => do
      let (h, q) ← B.sgdParam h s p
      return (h, new ++ [q])) = .ok (h', qs)) := by
  intro ps
  induction ps with
  | nil => intro h h' acc qs hj e; cases e; exact ⟨hj, fun hq => ⟨hq, rfl⟩⟩
  | cons p ps ih =>
    intro h h' acc qs hj e
    rw [List.foldlM_cons, R.bind_eq_ok] at e
    obtain ⟨⟨h1, acc1⟩, e1, e2⟩ := e
    simp only [R.bind_eq_ok, Prod.exists] at e1
    obtain ⟨h1', q, e1, e3⟩ := e1
    rw [R.pure_eq_ok] at e3
    cases e3
    obtain ⟨j1, q1⟩ := M.sgdParam hj e1
    obtain ⟨j2, q2⟩ := ih j1 e2
    refine ⟨j2, fun hq => ?_⟩
    obtain ⟨r2, f2⟩ := q2 hq
    obtain ⟨r1, f1⟩ := q1 r2
    refine ⟨r1, ?_⟩
    rw [List.foldlM_cons, R.bind_eq_ok]
    exact ⟨(h1, acc ++ [q]), by simp [f1], f2⟩

omit M in
theorem LayersMatch.update {ls ls' : List (Linear T)} (hm : LayersMatch A B ls ls') : ∀ {ps : List Nat} {acc acc' out : List (Linear T)},
    LayersMatch A B acc acc' → mlpUpdateLoop ls ps acc = .ok out → ∃ out', mlpUpdateLoop ls' ps acc' = .ok out' ∧ LayersMatch A B out out' := by
  induction hm with
  | nil => intro ps acc acc' out ha e; cases e; exact ⟨_, rfl, ha⟩
  | @cons l l' ls ls' hl hm ih =>
    intro ps acc acc' out ha e
    simp only [mlpUpdateLoop, R.bind_eq_ok] at e
    obtain ⟨b, e1, w, e2, l1, e3, e4⟩ := e
    simp only [Linear.updateParams, idxR_eq_ok, R.bind_eq_ok, R.pure_eq_ok] at e3
    obtain ⟨b', hb, w', hw, e3⟩ := e3
    cases hb
    cases hw
    subst e3
    obtain ⟨out', e5, h5⟩ := ih (acc := { l with weights := w, bias := b } :: acc) (acc' := { l' with weights := w, bias := b } :: acc') (.cons ⟨rfl, rfl, hl.2.2⟩ ha) e4
    refine ⟨out', ?_, h5⟩
    simp only [mlpUpdateLoop, e1, e2, R.bind_ok]
    exact e5

omit M in
theorem LayersMatch.reverse {ls ls' : List (Linear T)} (hm : LayersMatch A B ls ls') : LayersMatch A B ls.reverse ls'.reverse :=
  List.rel_reverse hm

omit M in
theorem LayersMatch.params {ls ls' : List (Linear T)} (hm : LayersMatch A B ls ls') : (⟨ls'⟩ : Mlp T).params = (⟨ls⟩ : Mlp T).params := by
  induction hm with
  | nil => rfl
  | @cons l l' ls ls' hl _ ih =>
    rw [show (⟨l :: ls⟩ : Mlp T).params = l.weights :: l.bias :: (⟨ls⟩ : Mlp T).params from rfl,
      show (⟨l' :: ls'⟩ : Mlp T).params = l'.weights :: l'.bias :: (⟨ls'⟩ : Mlp T).params from rfl, ih, hl.1, hl.2.1]

theorem Moves.step {mlp mlp' nlp : Mlp T} {h h' : Heap T} {x y : Nat} {lr : T} (hm : LayersMatch A B mlp.layers nlp.layers) (hj : J h)
    (e : A.step mlp h x y lr = .ok (h', mlp')) :
    J h' ∧ ∃ nlp', LayersMatch A B mlp'.layers nlp'.layers ∧ (Q h' → Q h ∧ B.step nlp h x y lr = .ok (h', nlp')) := by
  simp only [Kit.step, Kit.loss, Kit.sgdStep, R.bind_eq_ok, Prod.exists] at e
  obtain ⟨h4, l, ⟨h1, res, e1, h2, diff, e2, h3, dist, e3, e4⟩, h5, e5, h7, mlp7, ⟨h6, qs, e6, mlp6, e7, e7'⟩, h8, e8, h9, e9, e10⟩ := e
  rw [R.pure_eq_ok] at e7' e10
  cases e7'
  cases e10
  obtain ⟨j1, q1⟩ := M.forward hm hj e1
  obtain ⟨j2, q2⟩ := M.sub j1 e2
  obtain ⟨j3, q3⟩ := M.abs j2 e3
  obtain ⟨j4, q4⟩ := M.sum j3 e4
  obtain ⟨j5, q5⟩ := M.backward j4 e5
  obtain ⟨j5', q5'⟩ := M.leaf (Raw.scalar lr) j5
  obtain ⟨j6, q6⟩ := M.sgdParams j5' e6
  obtain ⟨j8, q8⟩ := M.zeroGrad j6 e8
  obtain ⟨j9, q9⟩ := M.zeroGrad j8 e9
  simp only [Mlp.updateParams, R.bind_eq_ok, R.pure_eq_ok] at e7
  obtain ⟨ls, e7, rfl⟩ := e7
  obtain ⟨ls', e7', hm'⟩ := hm.reverse.update (acc := []) (acc' := []) .nil e7
  refine ⟨j9, ⟨ls'⟩, hm', fun hq => ?_⟩
  obtain ⟨r6, f6⟩ := q6 (q8 (q9 hq))
  obtain ⟨r5, f5⟩ := q5 (q5' r6)
  obtain ⟨r4, f4⟩ := q4 r5
  obtain ⟨r3, f3⟩ := q3 r4
  obtain ⟨r2, f2⟩ := q2 r3
  obtain ⟨r1, f1⟩ := q1 r2
  refine ⟨r1, ?_⟩
  simp only [Kit.step, Kit.loss, Kit.sgdStep, R.bind_eq_ok, Prod.exists]
  refine ⟨h4, l, ⟨h1, res, f1, h2, diff, f2, h3, dist, f3, f4⟩, h5, f5, h7, ⟨ls'⟩, ⟨h7, qs, ?_, ⟨ls'⟩, ?_, rfl⟩, h8, e8, _, e9, rfl⟩
  · rw [show nlp.params = mlp.params from hm.params]; exact f6
  · simp only [Mlp.updateParams, e7', R.bind_ok]; rfl

theorem Moves.train {x y : Nat} {lr : T} : ∀ {n : Nat} {mlp mlp' nlp : Mlp T} {h h' : Heap T}, LayersMatch A B mlp.layers nlp.layers → J h →
    A.train mlp h x y lr n = .ok (h', mlp') →
    J h' ∧ ∃ nlp', LayersMatch A B mlp'.layers nlp'.layers ∧ (Q h' → Q h ∧ B.train nlp h x y lr n = .ok (h', nlp')) := by
  intro n
  induction n with
  | zero => intro mlp mlp' nlp h h' hm hj e; cases e; exact ⟨hj, nlp, hm, fun hq => ⟨hq, rfl⟩⟩
  | succ n ih =>
    intro mlp mlp' nlp h h' hm hj e
    rw [Kit.train, R.bind_eq_ok] at e
    obtain ⟨⟨h1, mlp1⟩, e1, e2⟩ := e
    obtain ⟨j1, nlp1, m1, q1⟩ := M.step hm hj e1
    obtain ⟨j2, nlp2, m2, q2⟩ := ih m1 j1 e2
    refine ⟨j2, nlp2, m2, fun hq => ?_⟩
    obtain ⟨r2, f2⟩ := q2 hq
    obtain ⟨r1, f1⟩ := q1 r2
    exact ⟨r1, by rw [Kit.train, f1, R.bind_ok]; exact f2⟩

end

/-! ## Between unbounded numbers and the two profiles -/

section

variable [Zero T] [One T] [Add T] [Mul T] [Sub T] [Neg T] [LT T] [DecidableLT T] [LE T] [DecidableLE T] [RealFn T]

theorem fst_step {h h' : Heap T} {op : Op T} {i : Nat} {x : R (Heap T × Nat)} (hr : op.run h = (do return (← x).1)) (hg : h.Good)
    (e : x = .ok (h', i)) : h'.Good ∧ (GraphFits h' → GraphFits h) := by
  have h1 : op.run h = .ok h' := hr.trans (run_of_fst e)
  exact ⟨(op.run_frame hg h1).2, GraphFits.frame (op.run_frame hg h1).1⟩

theorem moves_debug : Moves (natKit (T := T)) (kitU .debug) Heap.Good GraphFits where
  bmm {h h' l r i} hg e := by
    obtain ⟨h1, h2⟩ := fst_step (op := .bmm l r) rfl hg e
    refine ⟨h1, fun hq => ⟨h2 hq, ?_⟩⟩
    revert e
    simp only [natKit, kitU, bmmT, bmmTU, R.bind_eq_ok, Heap.node_eq_ok, R.pure_eq_ok, Heap.alloc]
    rintro ⟨n, hn, m, hm, v, hv, e⟩
    cases e
    exact ⟨n, hn, m, hm, v, bmmRawU_if (l := .raw n.val) (r := .raw m.val) (GraphFits.get (h2 hq) hn) (GraphFits.get (h2 hq) hm) v hv (GraphFits.last hq), rfl⟩
  add {h h' l r i} hg e := by
    obtain ⟨h1, h2⟩ := fst_step (op := .add l r) rfl hg e
    exact ⟨h1, fun hq => ⟨h2 hq, addTU_ok e hq⟩⟩
  sub {h h' l r i} hg e := by
    obtain ⟨h1, h2⟩ := fst_step (op := .sub l r) rfl hg e
    refine ⟨h1, fun hq => ⟨h2 hq, ?_⟩⟩
    simp only [natKit, subT, R.bind_eq_ok, Prod.exists] at e
    obtain ⟨h3, n, e1, e2⟩ := e
    have h4 : negTU .debug h r = .ok (h3, n) := (unaryTU_back (h2 hq) r (fun v => -v) .neg).ok _ e1
    simp only [kitU, subTU, h4, R.bind_ok, addTU_ok e2 hq]
  abs {h h' t i} hg e := by
    obtain ⟨h1, h2⟩ := fst_step (op := .abs t) rfl hg e
    exact ⟨h1, fun hq => ⟨h2 hq, (unaryTU_back (h2 hq) t _ _).ok _ e⟩⟩
  sum {h h' t i} hg e := by
    obtain ⟨h1, h2⟩ := fst_step (op := .sum t) rfl hg e
    refine ⟨h1, fun hq => ⟨h2 hq, ?_⟩⟩
    refine (Back.bind (x := h.node t) (Into.rfl' _) fun n hn => Back.bind (TL.sumU_back (x := .raw n.val) (GraphFits.node (h2 hq) hn)) fun v _ => ?_).ok _ e
    exact .step (newWithFillerU_back (GraphFits.node (h2 hq) hn)) (Into.rfl' _)
  act {f h h' t i} hg e := by
    cases f with
    | identity => cases e; exact ⟨hg, fun hq => ⟨hq, rfl⟩⟩
    | relu =>
      obtain ⟨h1, h2⟩ := fst_step (op := .relu t) rfl hg e
      exact ⟨h1, fun hq => ⟨h2 hq, (unaryTU_back (h2 hq) t _ _).ok _ e⟩⟩
    | tanh =>
      obtain ⟨h1, h2⟩ := fst_step (op := .tanh t) rfl hg e
      exact ⟨h1, fun hq => ⟨h2 hq, (unaryTU_back (h2 hq) t _ _).ok _ e⟩⟩
  mul {h s g sn gn v} _ hq hs hg e := (mulRawU_back (r := .raw gn.val) (GraphFits.get hq hs) (GraphFits.get hq hg)).ok _ e
  backward {h h' t} hg e := by
    have hf := Op.run_frame (op := .backward t) hg e
    exact ⟨hf.2, fun hq => ⟨GraphFits.frame hf.1 hq, backwardU_ok hg e hq⟩⟩
  leaf {h} v hg := ⟨(Allocs.leaf h v).2 hg, GraphFits.frame (Frame.append h _)⟩
  zeroGrad {h h' t} hg e := by
    have hf := Op.run_frame (op := .zeroGrad t) hg e
    exact ⟨hf.2, GraphFits.frame hf.1⟩

theorem moves_profile (p : Profile) : Moves (kitU (T := T) .debug) (kitU p) (fun _ => True) fun _ => True where
  bmm {h h' l r i} _ e := by
    refine ⟨trivial, fun _ => ⟨trivial, Into.ok (S := Fail.DebugFuel) ?_ _ e⟩⟩
    show Into _ (bmmTU .debug h l r) (bmmTU p h l r)
    unfold bmmTU; into
  add _ e := ⟨trivial, fun _ => ⟨trivial, (addTU_into p _ _ _).ok _ e⟩⟩
  sub {h h' l r i} _ e := by
    refine ⟨trivial, fun _ => ⟨trivial, Into.ok (S := Fail.DebugFuel) ?_ _ e⟩⟩
    show Into _ (subTU .debug h l r) (subTU p h l r)
    unfold subTU negTU; into
  abs _ e := ⟨trivial, fun _ => ⟨trivial, (unaryTU_into p _ _ _ _).ok _ e⟩⟩
  sum {h h' t i} _ e := by
    refine ⟨trivial, fun _ => ⟨trivial, Into.ok (S := Fail.DebugFuel) ?_ _ e⟩⟩
    show Into _ (sumTU .debug h t _) (sumTU p h t _)
    unfold sumTU; into
  act {f h h' t i} _ e := by
    refine ⟨trivial, fun _ => ⟨trivial, ?_⟩⟩
    cases f with
    | identity => exact e
    | relu => exact (unaryTU_into p _ _ _ _).ok _ e
    | tanh => exact (unaryTU_into p _ _ _ _).ok _ e
  mul _ _ _ _ e := (mulRawU_into p _ _).ok _ e
  backward {h h' t} _ e := by
    refine ⟨trivial, fun _ => ⟨trivial, Into.ok (S := Fail.DebugFuel) ?_ _ e⟩⟩
    show Into _ (backwardU .debug h t) (backwardU p h t)
    unfold backwardU; into
  leaf _ _ := ⟨trivial, fun _ => trivial⟩
  zeroGrad _ _ := ⟨trivial, fun _ => trivial⟩

theorem moves_nat : Moves (kitU (T := T) .debug) natKit (fun _ => True) fun _ => True where
  bmm {h h' l r i} _ e := by
    refine ⟨trivial, fun _ => ⟨trivial, Into.ok (S := Fail.DebugOnly) ?_ _ e⟩⟩
    show Into _ (bmmTU .debug h l r) (bmmT h l r)
    unfold bmmTU bmmT; into
  add _ e := ⟨trivial, fun _ => ⟨trivial, (addTU_nat _ _ _).ok _ e⟩⟩
  sub {h h' l r i} _ e := by
    refine ⟨trivial, fun _ => ⟨trivial, Into.ok (S := Fail.DebugOnly) ?_ _ e⟩⟩
    show Into _ (subTU .debug h l r) (subT h l r)
    unfold subTU subT; into
  abs {h h' t i} _ e := by
    refine ⟨trivial, fun _ => ⟨trivial, Into.ok (S := Fail.DebugOnly) ?_ _ e⟩⟩
    show Into _ (unaryTU .debug h t _ _) (absT h t)
    unfold unaryTU absT absRaw; into
  sum {h h' t i} _ e := by
    refine ⟨trivial, fun _ => ⟨trivial, Into.ok (S := Fail.DebugOnly) ?_ _ e⟩⟩
    show Into _ (sumTU .debug h t _) (sumT h t)
    unfold sumTU sumT
    exact Into.bind (Into.rfl' _) fun _ => Into.bind (TL.sumU_nat _) fun _ => (newWithFillerU_nat _ _).step (Into.rfl' _)
  act {f h h' t i} _ e := by
    refine ⟨trivial, fun _ => ⟨trivial, ?_⟩⟩
    cases f with
    | identity => exact e
    | relu =>
      refine Into.ok (S := Fail.DebugOnly) ?_ _ e
      show Into _ (unaryTU .debug h t _ _) (reluT h t)
      unfold unaryTU reluT reluRaw; into
    | tanh =>
      refine Into.ok (S := Fail.DebugOnly) ?_ _ e
      show Into _ (unaryTU .debug h t _ _) (tanhT h t)
      unfold unaryTU tanhT tanhRaw; into
  mul _ _ _ _ e := (mulRawU_nat _ _).ok _ e
  backward {h h' t} _ e := by
    refine ⟨trivial, fun _ => ⟨trivial, Into.ok (S := Fail.DebugOnly) ?_ _ e⟩⟩
    show Into _ (backwardU .debug h t) (backward h t)
    unfold backwardU backward; into
  leaf _ _ := ⟨trivial, fun _ => trivial⟩
  zeroGrad _ _ := ⟨trivial, fun _ => trivial⟩

end

end RL
