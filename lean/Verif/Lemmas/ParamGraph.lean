import Verif.Lemmas.ParamJvp

/-!
# Two runs of the same program: graph, layers, training
-/

namespace RL

open Spec

variable {T S : Type} {rel : T → S → Prop} {K : JvpKind → Prop}

/-- Results of functions that return a tensor. -/
def ResRel (K : JvpKind → Prop) (rel : T → S → Prop) (p : Heap T × Nat) (q : Heap S × Nat) : Prop := HeapRel K rel p.1 q.1 ∧ p.2 = q.2

section structural

variable {h : Heap T} {h' : Heap S} (hh : HeapRel K rel h h')

include hh

theorem node_rel (t : Nat) : SameOutcome (NodeRel K rel) (h.node t) (h'.node t) := SameOutcome.idx hh t

theorem alloc_rel {n : Node T} {n' : Node S} (hn : NodeRel K rel n n') : ResRel K rel (h.alloc n) (h'.alloc n') :=
  ⟨forall₂_append hh (.cons hn .nil), forall₂_length hh⟩

theorem leaf_rel {a : Raw T} {b : Raw S} (hab : RawRel rel a b) : ResRel K rel (h.leaf a) (h'.leaf b) :=
  alloc_rel hh ⟨hab, rfl, rfl, fun _ h => by cases h⟩

theorem alloc_op_rel {a : Raw T} {b : Raw S} (hab : RawRel rel a b) (inputs : List Nat) (k : JvpKind) (hk : K k) :
    ResRel K rel (h.alloc ⟨a, none, some ⟨inputs, k⟩⟩) (h'.alloc ⟨b, none, some ⟨inputs, k⟩⟩) :=
  alloc_rel hh ⟨hab, rfl, rfl, fun _ h => by cases h; exact hk⟩

theorem deepCloneT_rel (t : Nat) : SameOutcome (ResRel K rel) (deepCloneT h t) (deepCloneT h' t) := by
  rw [deepCloneT, deepCloneT]
  exact (node_rel hh t).bind fun _ _ h1 => alloc_rel hh ⟨h1.1, rfl, rfl, fun _ h => by cases h⟩

theorem rawCloneT_rel (t : Nat) : SameOutcome (ResRel K rel) (rawCloneT h t) (rawCloneT h' t) := by
  rw [rawCloneT, rawCloneT]
  exact (node_rel hh t).bind fun _ _ h1 => alloc_rel hh h1

theorem gradT_rel (t : Nat) : SameOutcome (fun a b => a = b) (gradT h t) (gradT h' t) := by
  rw [gradT, gradT]
  refine (node_rel hh t).bind fun _ _ h1 => ?_
  rw [h1.2.1]
  exact SameOutcome.refl _

theorem set_grad_rel {n : Node T} {n' : Node S} (hn : NodeRel K rel n n') (t : Nat) (o : Option Nat) :
    SameOutcome (HeapRel K rel) (pure (h.set t ⟨n.val, o, n.gradFn⟩)) (pure (h'.set t ⟨n'.val, o, n'.gradFn⟩)) :=
  forall₂_set hh (⟨hn.1, rfl, hn.2.2⟩ : NodeRel K rel ⟨n.val, o, n.gradFn⟩ ⟨n'.val, o, n'.gradFn⟩) t

theorem zeroGrad_rel (t : Nat) : SameOutcome (HeapRel K rel) (zeroGrad h t) (zeroGrad h' t) := by
  rw [zeroGrad, zeroGrad]
  exact (node_rel hh t).bind fun _ _ h1 => set_grad_rel hh h1 t none

theorem VExpr.eval_rel (v : VExpr) : SameOutcome (ViewRel rel) (v.eval h) (v.eval h') := by
  induction v with
  | view t ranges =>
    rw [VExpr.eval, VExpr.eval]
    exact (node_rel hh t).bind fun _ _ h1 => View.new_rel h1.1 _
  | reshape v shape ih =>
    rw [VExpr.eval, VExpr.eval]
    exact ih.bind fun _ _ h1 => View.reshape_rel h1 _
  | slice v ranges ih =>
    rw [VExpr.eval, VExpr.eval]
    exact ih.bind fun _ _ h1 => View.slice_rel h1 _

theorem Opnd.eval_rel (x : Opnd) : SameOutcome (TLRel rel) (x.eval h) (x.eval h') := by
  cases x with
  | tensor t =>
    rw [Opnd.eval, Opnd.eval]
    exact (node_rel hh t).bind fun _ _ h1 => TLRel.raw h1.1
  | view v =>
    rw [Opnd.eval, Opnd.eval]
    exact (VExpr.eval_rel hh v).bind fun _ _ h1 => TLRel.view h1

theorem rawUnaryT_rel {f : T → T} {g : S → S} (hf : ∀ a b, rel a b → rel (f a) (g b)) (x : Opnd) :
    SameOutcome (ResRel K rel) (rawUnaryT h f x) (rawUnaryT h' g x) := by
  rw [rawUnaryT, rawUnaryT]
  exact (Opnd.eval_rel hh x).bind fun _ _ h1 => (genericUnaryOp_rel h1 hf).bind fun _ _ h2 => leaf_rel hh h2

theorem viewToTensorT_rel (v : VExpr) : SameOutcome (ResRel K rel) (viewToTensorT h v) (viewToTensorT h' v) := by
  rw [viewToTensorT, viewToTensorT]
  exact (VExpr.eval_rel hh v).bind fun _ _ h1 => (TLRel.view h1).toTensor.bind fun _ _ h2 => leaf_rel hh h2

end structural

section arith

variable [Zero T] [One T] [Add T] [Mul T] [Neg T] [Zero S] [One S] [Add S] [Mul S] [Neg S] (H : Arith K rel)
  {h : Heap T} {h' : Heap S} (hh : HeapRel K rel h h')

include H hh

theorem addT_rel (hK : K .add) (l r : Nat) : SameOutcome (ResRel K rel) (addT h l r) (addT h' l r) := by
  rw [addT, addT]
  exact (node_rel hh l).bind fun _ _ h1 => (node_rel hh r).bind fun _ _ h2 =>
    (genericBinopRaw_rel H.zero (.raw h1.1) (.raw h2.1) H.add).bind fun _ _ h3 => alloc_op_rel hh h3 _ _ hK

theorem negT_rel (hK : K .neg) (t : Nat) : SameOutcome (ResRel K rel) (negT h t) (negT h' t) := by
  rw [negT, negT]
  exact (node_rel hh t).bind fun _ _ h1 => (genericUnaryOp_rel (.raw h1.1) fun _ _ => H.neg hK).bind fun _ _ h3 => alloc_op_rel hh h3 _ _ hK

theorem subT_rel (hA : K .add) (hN : K .neg) (l r : Nat) : SameOutcome (ResRel K rel) (subT h l r) (subT h' l r) := by
  rw [subT, subT]
  refine (negT_rel H hh hN r).bind ?_
  rintro ⟨g, n⟩ ⟨g', n'⟩ ⟨h1, h2⟩
  cases h2
  exact addT_rel H h1 hA _ _

theorem sumT_rel (hK : K .sum) (t : Nat) : SameOutcome (ResRel K rel) (sumT h t) (sumT h' t) := by
  rw [sumT, sumT]
  refine (node_rel hh t).bind fun n n' h1 => ((TLRel.raw h1.1).sum H.zero H.add).bind fun v v' h2 => ?_
  have h3 := leaf_rel hh (Raw.newWithFiller_rel n.val.shape H.one)
  rw [← h1.1.2]
  exact alloc_rel h3.1 ⟨h2, congrArg some h3.2, rfl, fun _ h => by cases h; exact hK⟩

theorem leftMulT_rel {s : T} {s' : S} (hs : rel s s') (x : Opnd) : SameOutcome (ResRel K rel) (leftMulT h s x) (leftMulT h' s' x) := by
  rw [leftMulT, leftMulT]
  exact (Opnd.eval_rel hh x).bind fun _ _ h1 => leaf_rel hh (h1.leftScalarMul H.mul hs)

theorem rightMulT_rel (x : Opnd) {s : T} {s' : S} (hs : rel s s') : SameOutcome (ResRel K rel) (rightMulT h x s) (rightMulT h' x s') := by
  rw [rightMulT, rightMulT]
  exact (Opnd.eval_rel hh x).bind fun _ _ h1 => leaf_rel hh (h1.rightScalarMul H.mul hs)

theorem rawSumT_rel (t : Nat) : SameOutcome (ResRel K rel) (rawSumT h t) (rawSumT h' t) := by
  rw [rawSumT, rawSumT]
  refine (node_rel hh t).bind fun n n' h1 => ((TLRel.raw h1.1).sum H.zero H.add).bind fun v v' h2 => ?_
  have h3 := leaf_rel hh (Raw.newWithFiller_rel n.val.shape H.one)
  rw [← h1.1.2]
  exact alloc_rel h3.1 ⟨h2, congrArg some h3.2, rfl, fun _ h => by cases h⟩

theorem bmmT_rel (hK : K .bmm) (l r : Nat) : SameOutcome (ResRel K rel) (bmmT h l r) (bmmT h' l r) := by
  rw [bmmT, bmmT]
  exact (node_rel hh l).bind fun _ _ h1 => (node_rel hh r).bind fun _ _ h2 =>
    (bmmRaw_rel H.zero H.add H.mul (.raw h1.1) (.raw h2.1)).bind fun _ _ h3 => alloc_op_rel hh h3 _ _ hK

theorem dotT_rel (hK : K .dot) (l r : Nat) : SameOutcome (ResRel K rel) (dotT h l r) (dotT h' l r) := by
  rw [dotT, dotT]
  exact (node_rel hh l).bind fun _ _ h1 => (node_rel hh r).bind fun _ _ h2 =>
    (dotRaw_rel H.zero H.add H.mul (.raw h1.1) (.raw h2.1)).bind fun _ _ h3 => alloc_op_rel hh h3 _ _ hK

theorem mulT_rel (l r : Nat) : SameOutcome (ResRel K rel) (mulT h l r) (mulT h' l r) := by
  rw [mulT, mulT]
  exact (node_rel hh l).bind fun _ _ h1 => (node_rel hh r).bind fun _ _ h2 =>
    (mulRaw_rel H.mul h1.1 (.raw h2.1)).bind fun _ _ h3 => leaf_rel hh h3

theorem viewSumT_rel (v : VExpr) : SameOutcome (ResRel K rel) (viewSumT h v) (viewSumT h' v) := by
  rw [viewSumT, viewSumT]
  exact (VExpr.eval_rel hh v).bind fun _ _ h1 => ((TLRel.view h1).sum H.zero H.add).bind fun _ _ h2 => leaf_rel hh h2

theorem bmmViewT_rel (hK : K .bmm) (l : Nat) (v : VExpr) : SameOutcome (ResRel K rel) (bmmViewT h l v) (bmmViewT h' l v) := by
  rw [bmmViewT, bmmViewT]
  refine (node_rel hh l).bind fun _ _ h1 => (VExpr.eval_rel hh v).bind fun _ _ h2 =>
    (bmmRaw_rel H.zero H.add H.mul (.raw h1.1) (.view h2)).bind fun _ _ h3 => (TLRel.view h2).toTensor.bind fun a b h4 => ?_
  have h5 := leaf_rel hh h4
  have h6 : (h.leaf a).2 = (h'.leaf b).2 := h5.2
  simp only [h6]
  exact alloc_op_rel h5.1 h3 _ _ hK

theorem viewBmmT_rel (v : VExpr) (r : Nat) : SameOutcome (ResRel K rel) (viewBmmT h v r) (viewBmmT h' v r) := by
  rw [viewBmmT, viewBmmT]
  exact (VExpr.eval_rel hh v).bind fun _ _ h1 => (node_rel hh r).bind fun _ _ h2 =>
    (bmmRaw_rel H.zero H.add H.mul (.view h1) (.raw h2.1)).bind fun _ _ h3 => leaf_rel hh h3

theorem viewBmmViewT_rel (v w : VExpr) : SameOutcome (ResRel K rel) (viewBmmViewT h v w) (viewBmmViewT h' v w) := by
  rw [viewBmmViewT, viewBmmViewT]
  exact (VExpr.eval_rel hh v).bind fun _ _ h1 => (VExpr.eval_rel hh w).bind fun _ _ h2 =>
    (bmmRaw_rel H.zero H.add H.mul (.view h1) (.view h2)).bind fun _ _ h3 => leaf_rel hh h3

theorem mulViewT_rel (l : Nat) (v : VExpr) : SameOutcome (ResRel K rel) (mulViewT h l v) (mulViewT h' l v) := by
  rw [mulViewT, mulViewT]
  exact (node_rel hh l).bind fun _ _ h1 => (VExpr.eval_rel hh v).bind fun _ _ h2 =>
    (mulRaw_rel H.mul h1.1 (.view h2)).bind fun _ _ h3 => leaf_rel hh h3

theorem rawBinT_rel (k : RawBin) (l r : Opnd) : SameOutcome (ResRel K rel) (rawBinT h k l r) (rawBinT h' k l r) := by
  rw [rawBinT, rawBinT]
  refine (Opnd.eval_rel hh l).bind fun _ _ h1 => (Opnd.eval_rel hh r).bind fun _ _ h2 => SameOutcome.bind (P := RawRel rel) ?_ fun _ _ h3 => leaf_rel hh h3
  cases k with
  | add => exact genericBinopRaw_rel H.zero h1 h2 H.add
  | mul => exact elementWiseMul_rel H.mul h1 h2
  | dot => exact dotRaw_rel H.zero H.add H.mul h1 h2
  | bmm => exact bmmRaw_rel H.zero H.add H.mul h1 h2

theorem rawSubT_rel (hK : K .neg) (l r : Nat) : SameOutcome (ResRel K rel) (rawSubT h l r) (rawSubT h' l r) := by
  rw [rawSubT, rawSubT]
  refine (node_rel hh l).bind fun _ _ h1 => (node_rel hh r).bind fun _ _ h2 => SameOutcome.bind (P := RawRel rel) ?_ fun _ _ h3 => leaf_rel hh h3
  rw [subRaw, subRaw]
  exact (genericUnaryOp_rel (.raw h2.1) fun _ _ => H.neg hK).bind fun _ _ h3 => genericBinopRaw_rel H.zero (.raw h1.1) (.raw h3) H.add

theorem updateGrad_rel (hK : K .add) (t g : Nat) : SameOutcome (HeapRel K rel) (updateGrad h t g) (updateGrad h' t g) := by
  rw [updateGrad, updateGrad]
  refine (node_rel hh t).bind fun n n' h1 => ?_
  rw [h1.2.1]
  cases n'.grad with
  | none => exact set_grad_rel hh h1 t _
  | some o =>
    refine (addT_rel H hh hK o g).bind ?_
    rintro ⟨g, a⟩ ⟨g', a'⟩ ⟨h2, h3⟩
    cases h3
    exact set_grad_rel h2 h1 t _

theorem Linear.forward_rel (hA : K .add) (hB : K .bmm) {a : Linear T} {b : Linear S} (hab : LayerRel K rel a b) (t : Nat) :
    SameOutcome (ResRel K rel) (a.forward h t) (b.forward h' t) := by
  rw [Linear.forward, Linear.forward, hab.1, hab.2.1]
  refine (bmmT_rel H hh hB _ _).bind ?_
  rintro ⟨g, n⟩ ⟨g', n'⟩ ⟨h1, h2⟩
  cases h2
  refine (addT_rel H h1 hA _ _).bind ?_
  rintro ⟨g, n⟩ ⟨g', n'⟩ ⟨h1, h2⟩
  cases h2
  exact hab.2.2 _ _ _ h1

theorem Mlp.forward_rel (hA : K .add) (hB : K .bmm) {a : Mlp T} {b : Mlp S} (hab : NetRel K rel a b) (t : Nat) :
    SameOutcome (ResRel K rel) (a.forward h t) (b.forward h' t) := by
  rw [Mlp.forward, Mlp.forward]
  refine SameOutcome.foldlM hab ?_ (⟨hh, rfl⟩ : ResRel K rel (h, t) (h', t))
  rintro ⟨g, n⟩ ⟨g', n'⟩ l l' ⟨h1, h2⟩ hl
  cases h2
  exact Linear.forward_rel H h1 hA hB hl _

theorem sgdParam_rel (hA : K .add) (hN : K .neg) (s p : Nat) : SameOutcome (ResRel K rel) (sgdParam h s p) (sgdParam h' s p) := by
  rw [sgdParam, sgdParam]
  refine (gradT_rel hh p).bind fun g _ e => ?_
  cases e
  refine (node_rel hh g).bind fun _ _ h1 => (node_rel hh s).bind fun _ _ h2 => (mulRaw_rel H.mul h2.1 (.raw h1.1)).bind fun d d' h3 => ?_
  have h4 := leaf_rel hh h3
  have h6 : (h.leaf d).2 = (h'.leaf d').2 := h4.2
  simp only [h6]
  refine (subT_rel H h4.1 hA hN _ _).bind ?_
  rintro ⟨g, n⟩ ⟨g', n'⟩ ⟨h1, h2⟩
  cases h2
  exact (zeroGrad_rel h1 _).bind fun _ _ h5 => ⟨h5, rfl⟩

theorem sgdParams_rel (hA : K .add) (hN : K .neg) (s : Nat) (ps : List Nat) :
    SameOutcome (fun p q => HeapRel K rel p.1 q.1 ∧ p.2 = q.2) (sgdParams h s ps) (sgdParams h' s ps) := by
  rw [sgdParams, sgdParams]
  refine SameOutcome.foldlM_same _ ?_ ⟨hh, rfl⟩
  rintro ⟨g, n⟩ ⟨g', n'⟩ p ⟨h1, h2⟩
  cases h2
  refine (sgdParam_rel H h1 hA hN s p).bind ?_
  rintro ⟨g, n⟩ ⟨g', n'⟩ ⟨h1, h2⟩
  cases h2
  exact ⟨h1, rfl⟩

end arith

theorem Linear.updateParams_rel {a : Linear T} {b : Linear S} (hab : LayerRel K rel a b) (ps : List Nat) :
    SameOutcome (LayerRel K rel) (a.updateParams ps) (b.updateParams ps) := by
  rw [Linear.updateParams, Linear.updateParams]
  exact SameOutcome.same _ fun _ => SameOutcome.same _ fun _ => ⟨rfl, rfl, hab.2.2⟩

theorem mlpUpdateLoop_rel {a : List (Linear T)} {b : List (Linear S)} (hab : List.Forall₂ (LayerRel K rel) a b) (ps : List Nat)
    {c : List (Linear T)} {d : List (Linear S)} (hcd : List.Forall₂ (LayerRel K rel) c d) :
    SameOutcome (List.Forall₂ (LayerRel K rel)) (mlpUpdateLoop a ps c) (mlpUpdateLoop b ps d) := by
  induction hab generalizing ps c d with
  | nil => exact hcd
  | cons h _ ih =>
    rw [mlpUpdateLoop, mlpUpdateLoop]
    exact SameOutcome.same _ fun _ => SameOutcome.same _ fun _ => (Linear.updateParams_rel h _).bind fun _ _ h1 => ih _ (.cons h1 hcd)

theorem forall₂_reverse' {α β : Type _} {P : α → β → Prop} {l : List α} {l' : List β} (h : List.Forall₂ P l l') :
    List.Forall₂ P l.reverse l'.reverse := by
  induction h with
  | nil => exact .nil
  | cons h _ ih => rw [List.reverse_cons, List.reverse_cons]; exact forall₂_append ih (.cons h .nil)

theorem Mlp.updateParams_rel {a : Mlp T} {b : Mlp S} (hab : NetRel K rel a b) (ps : List Nat) :
    SameOutcome (NetRel K rel) (a.updateParams ps) (b.updateParams ps) := by
  rw [Mlp.updateParams, Mlp.updateParams]
  exact (mlpUpdateLoop_rel (forall₂_reverse' hab) _ .nil).bind fun _ _ h => h

theorem Mlp.params_rel {a : Mlp T} {b : Mlp S} (hab : NetRel K rel a b) : a.params = b.params := by
  obtain ⟨a⟩ := a
  obtain ⟨b⟩ := b
  change List.Forall₂ (LayerRel K rel) a b at hab
  induction hab with
  | nil => rfl
  | cons h _ ih =>
    simp only [Mlp.params, Linear.params, List.flatMap_cons] at ih ⊢
    rw [ih, h.1, h.2.1]

section all

variable [Zero T] [One T] [Add T] [Mul T] [Neg T] [Zero S] [One S] [Add S] [Mul S] [Neg S]

theorem Mlp.sgdStep_rel (H : Arith K rel) {h : Heap T} {h' : Heap S} (hh : HeapRel K rel h h') (hA : K .add) (hN : K .neg) {a : Mlp T} {b : Mlp S}
    (hab : NetRel K rel a b) (s : Nat) :
    SameOutcome (fun p q => HeapRel K rel p.1 q.1 ∧ NetRel K rel p.2 q.2) (a.sgdStep h s) (b.sgdStep h' s) := by
  rw [Mlp.sgdStep, Mlp.sgdStep, Mlp.params_rel hab]
  refine (sgdParams_rel H hh hA hN s _).bind ?_
  rintro ⟨g, n⟩ ⟨g', n'⟩ ⟨h1, h2⟩
  cases h2
  exact (Mlp.updateParams_rel hab _).bind fun _ _ h3 => ⟨h1, h3⟩

variable [Sub T] [LT T] [DecidableLT T] [LE T] [DecidableLE T] [RealFn T] [Sub S] [LT S] [DecidableLT S] [LE S] [DecidableLE S] [RealFn S]
  (H : Arith K rel) (F : Functions K rel)

include H F

theorem reluT_rel {h : Heap T} {h' : Heap S} (hh : HeapRel K rel h h') (hK : K .relu) (t : Nat) :
    SameOutcome (ResRel K rel) (reluT h t) (reluT h' t) := by
  rw [reluT, reluT]
  exact (node_rel hh t).bind fun _ _ h1 => (genericUnaryOp_rel (.raw h1.1) fun a b h => (F.relu hK a b h).1).bind fun _ _ h3 => alloc_op_rel hh h3 _ _ hK

theorem tanhT_rel {h : Heap T} {h' : Heap S} (hh : HeapRel K rel h h') (hK : K .tanh) (t : Nat) :
    SameOutcome (ResRel K rel) (tanhT h t) (tanhT h' t) := by
  rw [tanhT, tanhT]
  exact (node_rel hh t).bind fun _ _ h1 => (genericUnaryOp_rel (.raw h1.1) fun a b h => (F.tanh hK a b h).1).bind fun _ _ h3 => alloc_op_rel hh h3 _ _ hK

theorem absT_rel {h : Heap T} {h' : Heap S} (hh : HeapRel K rel h h') (hK : K .abs) (t : Nat) :
    SameOutcome (ResRel K rel) (absT h t) (absT h' t) := by
  rw [absT, absT]
  exact (node_rel hh t).bind fun _ _ h1 => (genericUnaryOp_rel (.raw h1.1) fun a b h => (F.abs hK a b h).1).bind fun _ _ h3 => alloc_op_rel hh h3 _ _ hK

theorem computeJvp_rel (hA : K .add) (n : Nat) {h : Heap T} {h' : Heap S} (hh : HeapRel K rel h h') (d : Deriv) (hd : K d.kind)
    {gs : List (Raw T)} {gs' : List (Raw S)} (hg : List.Forall₂ (RawRel rel) gs gs') :
    SameOutcome (HeapRel K rel) (computeJvp n h d gs) (computeJvp n h' d gs') := by
  induction n generalizing h h' d gs gs' with
  | zero => exact rfl
  | succ n ih =>
    rw [computeJvp, computeJvp]
    refine SameOutcome.bind (P := List.Forall₂ (RawRel rel)) ?_ fun ins ins' hi => (applyJvp_rel H F d.kind hd hi hg).bind fun sg sg' hs => ?_
    · exact SameOutcome.mapM (forall₂_eq _) fun i _ e => by cases e; exact (node_rel hh i).bind fun _ _ h1 => h1.1
    · have hz : List.Forall₂ (fun p q => RawRel rel p.1 q.1 ∧ p.2 = q.2) (sg.zip d.inputs) (sg'.zip d.inputs) := by
        generalize d.inputs = l
        induction hs generalizing l with
        | nil => exact .nil
        | cons h1 _ ih1 =>
          cases l with
          | nil => exact .nil
          | cons x l => exact .cons ⟨h1, rfl⟩ (ih1 l)
      refine SameOutcome.foldlM hz ?_ hh
      rintro g g' ⟨grad, i⟩ ⟨grad', i'⟩ hgg ⟨h1, h2⟩
      cases h2
      refine (node_rel hgg i).bind fun m m' hm => ?_
      rw [forall₂_length h1.1, forall₂_length hm.1.1, hm.1.2]
      refine SameOutcome.same _ fun _ => (Raw.new_rel h1.1 _).bind fun s s' hss => ?_
      have h4 := leaf_rel hgg hss
      have h6 : (g.leaf s).2 = (g'.leaf s').2 := h4.2
      simp only [h6]
      refine (updateGrad_rel H h4.1 hA _ _).bind fun k k' hk => ?_
      rw [hm.2.2.1]
      cases e : m'.gradFn with
      | none => exact hk
      | some d' => exact ih hk d' (hm.2.2.2 d' (by rw [hm.2.2.1, e])) (.cons h1 .nil)

theorem backward_rel (hA : K .add) {h : Heap T} {h' : Heap S} (hh : HeapRel K rel h h') (t : Nat) :
    SameOutcome (HeapRel K rel) (backward h t) (backward h' t) := by
  rw [backward, backward]
  refine (node_rel hh t).bind fun n n' hn => ?_
  rw [forall₂_length hn.1.1, forall₂_length hh]
  refine SameOutcome.same _ fun _ => ?_
  rw [hn.2.2.1]
  cases e : n'.gradFn with
  | none => exact rfl
  | some d => exact computeJvp_rel H F hA _ hh d (hn.2.2.2 d (by rw [hn.2.2.1, e])) (.cons (Raw.scalar_rel H.one) .nil)

theorem Op.run_rel {h : Heap T} {h' : Heap S} (hh : HeapRel K rel h h') {o : Op T} {o' : Op S} (ho : OpRel K rel o o') :
    SameOutcome (HeapRel K rel) (o.run h) (o'.run h') := by
  have fst : ∀ {x : R (Heap T × Nat)} {y : R (Heap S × Nat)}, SameOutcome (ResRel K rel) x y →
      SameOutcome (HeapRel K rel) (do return (← x).1) (do return (← y).1) := fun h => h.bind fun _ _ h1 => h1.1
  cases ho with
  | new shape hv => exact (Raw.new_rel hv shape).bind fun _ _ h1 => (leaf_rel hh h1).1
  | filler shape hv => exact (leaf_rel hh (Raw.newWithFiller_rel shape hv)).1
  | scalar hv => exact (leaf_rel hh (Raw.scalar_rel hv)).1
  | default => exact (leaf_rel hh ⟨.nil, rfl⟩).1
  | add l r hK => exact fst (addT_rel H hh hK l r)
  | sub l r hK hN => exact fst (subT_rel H hh hK hN l r)
  | neg t hK => exact fst (negT_rel H hh hK t)
  | mul l r => exact fst (mulT_rel H hh l r)
  | relu t hK => exact fst (reluT_rel H F hh hK t)
  | tanh t hK => exact fst (tanhT_rel H F hh hK t)
  | abs t hK => exact fst (absT_rel H F hh hK t)
  | sum t hK => exact fst (sumT_rel H hh hK t)
  | bmm l r hK => exact fst (bmmT_rel H hh hK l r)
  | dot l r hK => exact fst (dotT_rel H hh hK l r)
  | viewToTensor v => exact fst (viewToTensorT_rel hh v)
  | viewSum v => exact fst (viewSumT_rel H hh v)
  | bmmView l v hK => exact fst (bmmViewT_rel H hh hK l v)
  | viewBmm v r => exact fst (viewBmmT_rel H hh v r)
  | viewBmmView v w => exact fst (viewBmmViewT_rel H hh v w)
  | mulView l v => exact fst (mulViewT_rel H hh l v)
  | rawBin k l r => exact fst (rawBinT_rel H hh k l r)
  | rawSub l r hK => exact fst (rawSubT_rel H hh hK l r)
  | rawUnary x hf => exact fst (rawUnaryT_rel hh hf x)
  | leftMul x hs => exact fst (leftMulT_rel H hh hs x)
  | rightMul x hs => exact fst (rightMulT_rel H hh x hs)
  | rawSum t => exact fst (rawSumT_rel H hh t)
  | deepClone t => exact fst (deepCloneT_rel hh t)
  | rawClone t => exact fst (rawCloneT_rel hh t)
  | updateGrad t g hK => exact (node_rel hh g).bind fun _ _ _ => updateGrad_rel H hh hK t g
  | zeroGrad t => exact zeroGrad_rel hh t
  | backward t hK => exact backward_rel H F hK hh t

theorem runOps_rel {h : Heap T} {h' : Heap S} (hh : HeapRel K rel h h') {ops : List (Op T)} {ops' : List (Op S)}
    (ho : List.Forall₂ (OpRel K rel) ops ops') : SameOutcome (HeapRel K rel) (runOps h ops) (runOps h' ops') :=
  SameOutcome.foldlM ho (fun _ _ _ _ h1 h2 => Op.run_rel H F h1 h2) hh

theorem trainStep_rel (hK : ∀ k, k ∈ [JvpKind.add, .neg, .bmm, .abs, .sum] → K k) {h : Heap T} {h' : Heap S} (hh : HeapRel K rel h h')
    {a : Mlp T} {b : Mlp S} (hab : NetRel K rel a b) (input expected : Nat) {lr : T} {lr' : S} (hl : rel lr lr') :
    SameOutcome (fun p q => HeapRel K rel p.1 q.1 ∧ NetRel K rel p.2 q.2) (trainStep a h input expected lr) (trainStep b h' input expected lr') := by
  rw [trainStep, trainStep, trainLoss, trainLoss]
  refine SameOutcome.bind (P := ResRel K rel) ?_ ?_
  · refine (Mlp.forward_rel H hh (hK _ (by simp)) (hK _ (by simp)) hab _).bind ?_
    rintro ⟨g, n⟩ ⟨g', n'⟩ ⟨h1, h2⟩
    cases h2
    refine (subT_rel H h1 (hK _ (by simp)) (hK _ (by simp)) _ _).bind ?_
    rintro ⟨g, n⟩ ⟨g', n'⟩ ⟨h1, h2⟩
    cases h2
    refine (absT_rel H F h1 (hK _ (by simp)) _).bind ?_
    rintro ⟨g, n⟩ ⟨g', n'⟩ ⟨h1, h2⟩
    cases h2
    exact sumT_rel H h1 (hK _ (by simp)) _
  · rintro ⟨g, n⟩ ⟨g', n'⟩ ⟨h1, h2⟩
    cases h2
    refine (backward_rel H F (hK _ (by simp)) h1 n).bind fun g g' hg => ?_
    have h4 := leaf_rel hg (Raw.scalar_rel hl)
    have h6 : (g.leaf (Raw.scalar lr)).2 = (g'.leaf (Raw.scalar lr')).2 := h4.2
    simp only [h6]
    refine (Mlp.sgdStep_rel H h4.1 (hK _ (by simp)) (hK _ (by simp)) hab _).bind ?_
    rintro ⟨g, n⟩ ⟨g', n'⟩ ⟨h1, h2⟩
    exact (zeroGrad_rel h1 _).bind fun _ _ h5 => (zeroGrad_rel h5 _).bind fun _ _ h6 => ⟨h6, h2⟩

theorem train_rel (hK : ∀ k, k ∈ [JvpKind.add, .neg, .bmm, .abs, .sum] → K k) {h : Heap T} {h' : Heap S} (hh : HeapRel K rel h h')
    {a : Mlp T} {b : Mlp S} (hab : NetRel K rel a b) (input expected : Nat) {lr : T} {lr' : S} (hl : rel lr lr') (n : Nat) :
    SameOutcome (fun p q => HeapRel K rel p.1 q.1 ∧ NetRel K rel p.2 q.2) (train a h input expected lr n) (train b h' input expected lr' n) := by
  induction n generalizing h h' a b with
  | zero => exact ⟨hh, hab⟩
  | succ n ih =>
    rw [train, train]
    refine (trainStep_rel H F hK hh hab input expected hl).bind ?_
    rintro ⟨g, n⟩ ⟨g', n'⟩ ⟨h1, h2⟩
    exact ih h1 h2

end all

end RL
