import Verif.Lemmas.ParamIf

/-!
# Two runs of the same program that compare elements: runs
-/

namespace RL

open Spec

variable {T S : Type} {rel : T → S → Prop} {D : JvpKind → T → S → Prop}
  [Zero T] [One T] [Add T] [Mul T] [Neg T] [Zero S] [One S] [Add S] [Mul S] [Neg S]
  [Sub T] [LT T] [DecidableLT T] [LE T] [DecidableLE T] [RealFn T] [Sub S] [LT S] [DecidableLT S] [LE S] [DecidableLE S] [RealFn S]

/-- Earlier heaps are as clear as later ones. -/
theorem ClearIn.before {g G : Heap T} {h H : Heap S} (hc : ClearIn D G H) (hg : g.Good) (hl : g.length = h.length) (f1 : Frame g G) (f2 : Frame h H) :
    ClearIn D g h := by
  intro i m d hm hd p hp
  obtain ⟨o, ho⟩ := f1.get hm
  obtain ⟨a, b, h1, h2, h3⟩ := hc i _ d ho hd p hp
  have lt : p < g.length := ((hg i m hm).older d hd p hp).trans (List.getElem?_eq_some_iff.1 hm).1
  have e1 : g[p]? = some g[p] := List.getElem?_eq_getElem lt
  have e2 : h[p]? = some h[p] := List.getElem?_eq_getElem (hl ▸ lt)
  refine ⟨_, _, e1, e2, ?_⟩
  obtain ⟨o1, k1⟩ := f1.get e1
  obtain ⟨o2, k2⟩ := f2.get e2
  rw [k1] at h1
  rw [k2] at h2
  cases h1
  cases h2
  exact h3

/-- Values from a `SameOutcome`. -/
theorem Spec.SameOutcome.of_ok {α β : Type} {P : α → β → Prop} {x : R α} {y : R β} (h : SameOutcome P x y) {a : α} {b : β} (ha : x = .ok a) (hb : y = .ok b) :
    P a b := by
  subst ha
  subst hb
  exact h

theorem unary_if {g g1 : Heap T} {h h1 : Heap S} (hh : HeapAll rel g h) (k : JvpKind) (t : Nat) (f : T → T) (f' : S → S)
    (hf : ∀ a b, rel a b ∧ D k a b → rel (f a) (f' b)) (hc : ClearIn D g1 h1)
    (e1 : (do let n ← g.node t
              let v ← genericUnaryOp (.raw n.val) f
              return (g.alloc { val := v, grad := none, gradFn := some ⟨[t], k⟩ }).1 : R (Heap T)) = .ok g1)
    (e2 : (do let n ← h.node t
              let v ← genericUnaryOp (.raw n.val) f'
              return (h.alloc { val := v, grad := none, gradFn := some ⟨[t], k⟩ }).1 : R (Heap S)) = .ok h1) : HeapAll rel g1 h1 := by
  simp only [R.bind_eq_ok, R.pure_eq_ok, Heap.node_eq_ok] at e1 e2
  obtain ⟨n, hn, v, hv, e1⟩ := e1
  obtain ⟨n', hn', v', hv', e2⟩ := e2
  subst e1
  subst e2
  obtain ⟨a, b, k1, k2, k3⟩ := hc g.length ⟨v, none, some ⟨[t], k⟩⟩ ⟨[t], k⟩ (by simp [Heap.alloc]) rfl t (by simp)
  have k1' : (g ++ [(⟨v, none, some ⟨[t], k⟩⟩ : Node T)])[t]? = some n := getElem?_append_some hn
  have k2' : (h ++ [(⟨v', none, some ⟨[t], k⟩⟩ : Node S)])[t]? = some n' := getElem?_append_some hn'
  simp only [Heap.alloc] at k1 k2
  rw [k1'] at k1
  rw [k2'] at k2
  cases k1
  cases k2
  obtain ⟨m', hm', hr⟩ := forall₂_get hh hn
  rw [hn'] at hm'
  cases hm'
  have h3 : RawRel (fun x y => rel x y ∧ D k x y) n.val n'.val := ⟨forall₂_and hr.1.1 k3, hr.1.2⟩
  exact (alloc_op_rel hh ((genericUnaryOp_rel (.raw h3) hf).of_ok hv hv') [t] k trivial).1

theorem Op.run_if (H : Arith (fun _ => True) rel) (F : FunctionsIf D rel) {g g1 : Heap T} {h h1 : Heap S} (hh : HeapIf D rel g h) {o : Op T} {o' : Op S}
    (ho : OpRel (fun _ => True) rel o o') (e1 : o.run g = .ok g1) (e2 : o'.run h = .ok h1) (hc : ClearIn D g1 h1) : HeapAll rel g1 h1 := by
  have fst : ∀ {x : R (Heap T × Nat)} {y : R (Heap S × Nat)}, SameOutcome (ResAll rel) x y →
      SameOutcome (HeapAll rel) (do return (← x).1) (do return (← y).1) := fun h => h.bind fun _ _ h1 => h1.1
  have hr := hh.1
  cases ho with
  | new shape hv =>
    refine SameOutcome.of_ok (P := HeapAll rel) ?_ e1 e2
    exact (Raw.new_rel hv shape).bind fun _ _ h1 => (leaf_rel hr h1).1
  | filler shape hv => cases e1; cases e2; exact (leaf_rel hr (Raw.newWithFiller_rel shape hv)).1
  | scalar hv => cases e1; cases e2; exact (leaf_rel hr (Raw.scalar_rel hv)).1
  | default => cases e1; cases e2; exact (leaf_rel hr ⟨.nil, rfl⟩).1
  | add l r hK => exact (fst (addT_rel H hr hK l r)).of_ok e1 e2
  | sub l r hK hN => exact (fst (subT_rel H hr hK hN l r)).of_ok e1 e2
  | neg t hK => exact (fst (negT_rel H hr hK t)).of_ok e1 e2
  | mul l r => exact (fst (mulT_rel H hr l r)).of_ok e1 e2
  | relu t hK =>
    refine unary_if hr .relu t reluFn reluFn (fun a b hab => (F.relu a b hab.1 hab.2).1) hc ?_ ?_
    · simpa only [Op.run, reluT, reluRaw, bind_assoc, pure_bind] using e1
    · simpa only [Op.run, reluT, reluRaw, bind_assoc, pure_bind] using e2
  | tanh t hK =>
    refine unary_if hr .tanh t RealFn.tanh RealFn.tanh (fun a b hab => (F.tanh a b hab.1 hab.2).1) hc ?_ ?_
    · simpa only [Op.run, tanhT, tanhRaw, bind_assoc, pure_bind] using e1
    · simpa only [Op.run, tanhT, tanhRaw, bind_assoc, pure_bind] using e2
  | abs t hK =>
    refine unary_if hr .abs t RealFn.abs RealFn.abs (fun a b hab => (F.abs a b hab.1 hab.2).1) hc ?_ ?_
    · simpa only [Op.run, absT, absRaw, bind_assoc, pure_bind] using e1
    · simpa only [Op.run, absT, absRaw, bind_assoc, pure_bind] using e2
  | sum t hK => exact (fst (sumT_rel H hr hK t)).of_ok e1 e2
  | bmm l r hK => exact (fst (bmmT_rel H hr hK l r)).of_ok e1 e2
  | dot l r hK => exact (fst (dotT_rel H hr hK l r)).of_ok e1 e2
  | viewToTensor v => exact (fst (viewToTensorT_rel hr v)).of_ok e1 e2
  | viewSum v => exact (fst (viewSumT_rel H hr v)).of_ok e1 e2
  | bmmView l v hK => exact (fst (bmmViewT_rel H hr hK l v)).of_ok e1 e2
  | viewBmm v r => exact (fst (viewBmmT_rel H hr v r)).of_ok e1 e2
  | viewBmmView v w => exact (fst (viewBmmViewT_rel H hr v w)).of_ok e1 e2
  | mulView l v => exact (fst (mulViewT_rel H hr l v)).of_ok e1 e2
  | rawBin k l r => exact (fst (rawBinT_rel H hr k l r)).of_ok e1 e2
  | rawSub l r hK => exact (fst (rawSubT_rel H hr hK l r)).of_ok e1 e2
  | rawUnary x hf => exact (fst (rawUnaryT_rel hr hf x)).of_ok e1 e2
  | leftMul x hs => exact (fst (leftMulT_rel H hr hs x)).of_ok e1 e2
  | rightMul x hs => exact (fst (rightMulT_rel H hr x hs)).of_ok e1 e2
  | rawSum t => exact (fst (rawSumT_rel H hr t)).of_ok e1 e2
  | deepClone t => exact (fst (deepCloneT_rel hr t)).of_ok e1 e2
  | rawClone t => exact (fst (rawCloneT_rel hr t)).of_ok e1 e2
  | updateGrad t i hK =>
    refine SameOutcome.of_ok (P := HeapAll rel) ?_ e1 e2
    exact (node_rel hr i).bind fun _ _ _ => updateGrad_rel H hr hK t i
  | zeroGrad t => exact (zeroGrad_rel hr t).of_ok e1 e2
  | backward t hK => exact ((backward_if H F hh t).of_ok e1 e2).1

/-- If the inputs of the operations that compare elements have `D` in the end, then all elements are related. -/
theorem runOps_if (H : Arith (fun _ => True) rel) (F : FunctionsIf D rel) {ops : List (Op T)} {ops' : List (Op S)}
    (ho : List.Forall₂ (OpRel (fun _ => True) rel) ops ops') : ∀ {g G : Heap T} {h K : Heap S}, g.Good → h.Good → HeapAll rel g h →
    runOps g ops = .ok G → runOps h ops' = .ok K → ClearIn D G K → HeapAll rel G K := by
  induction ho with
  | nil => intro g G h K _ _ hh e1 e2 _; cases e1; cases e2; exact hh
  | @cons o o' ops ops' ho _ ih =>
    intro g G h K gg gh hh e1 e2 hc
    rw [runOps_cons, R.bind_eq_ok] at e1 e2
    obtain ⟨g1, a1, e1⟩ := e1
    obtain ⟨h1, a2, e2⟩ := e2
    obtain ⟨f1, gg1⟩ := Op.run_frame gg a1
    obtain ⟨f2, gh1⟩ := Op.run_frame gh a2
    obtain ⟨k1, -⟩ := runOps_frame gg1 e1
    obtain ⟨k2, -⟩ := runOps_frame gh1 e2
    have c0 : ClearIn D g h := hc.before gg (forall₂_length hh) (f1.trans k1) (f2.trans k2)
    have sh : HeapAll (fun (_ : T) (_ : S) => True) g1 h1 := by
      have ho' : OpRel (fun _ => True) (fun (_ : T) (_ : S) => True) o o' := by
        have w : ∀ {l : List T} {l' : List S}, List.Forall₂ rel l l' → List.Forall₂ (fun _ _ => True) l l' := fun h => forall₂_all h fun _ _ => trivial
        cases ho with
        | new s h => exact .new s (w h)
        | filler s _ => exact .filler s trivial
        | scalar _ => exact .scalar trivial
        | default => exact .default
        | add l r h => exact .add l r h
        | sub l r h h' => exact .sub l r h h'
        | neg t h => exact .neg t h
        | mul l r => exact .mul l r
        | relu t h => exact .relu t h
        | tanh t h => exact .tanh t h
        | abs t h => exact .abs t h
        | sum t h => exact .sum t h
        | bmm l r h => exact .bmm l r h
        | dot l r h => exact .dot l r h
        | viewToTensor v => exact .viewToTensor v
        | viewSum v => exact .viewSum v
        | bmmView l v h => exact .bmmView l v h
        | viewBmm v r => exact .viewBmm v r
        | viewBmmView v w => exact .viewBmmView v w
        | mulView l v => exact .mulView l v
        | rawBin k l r => exact .rawBin k l r
        | rawSub l r h => exact .rawSub l r h
        | rawUnary x _ => exact .rawUnary x fun _ _ _ => trivial
        | leftMul x _ => exact .leftMul x trivial
        | rightMul x _ => exact .rightMul x trivial
        | rawSum t => exact .rawSum t
        | deepClone t => exact .deepClone t
        | rawClone t => exact .rawClone t
        | updateGrad t g h => exact .updateGrad t g h
        | zeroGrad t => exact .zeroGrad t
        | backward t h => exact .backward t h
      have hh' : HeapAll (fun (_ : T) (_ : S) => True) g h :=
        List.Forall₂.imp (fun _ _ hn => ⟨⟨forall₂_all hn.1.1 fun _ _ => trivial, hn.1.2⟩, hn.2⟩) hh
      exact (Op.run_rel ⟨trivial, trivial, fun _ _ => trivial, fun _ _ => trivial, fun _ _ _ _ => trivial⟩
        ⟨fun _ _ _ _ => ⟨trivial, trivial⟩, fun _ _ _ _ => ⟨trivial, trivial⟩, fun _ _ _ _ => ⟨trivial, trivial⟩⟩ hh' ho').of_ok a1 a2
    have c1 : ClearIn D g1 h1 := hc.before gg1 (forall₂_length sh) k1 k2
    exact ih gg1 gh1 (Op.run_if H F ⟨hh, c0⟩ ho a1 a2 c1) e1 e2 hc

end RL
