import Verif.Lemmas.ParamBase

/-!
# Two runs of the same program: gradient functions
-/

namespace RL

open Spec

variable {T S : Type} {rel : T → S → Prop} {K : JvpKind → Prop} [Zero T] [One T] [Add T] [Mul T] [Neg T] [Zero S] [One S] [Add S] [Mul S] [Neg S]

theorem addAt_rel (H : Arith K rel) {l : List T} {l' : List S} (h : List.Forall₂ rel l l') (i : Nat) {a : T} {b : S} (hab : rel a b) :
    SameOutcome (List.Forall₂ rel) (addAt l i a) (addAt l' i b) := by
  rw [addAt, addAt]
  exact (SameOutcome.idx h i).bind fun _ _ h1 => forall₂_set h (H.add h1 hab) i

theorem diagLoop_rel (H : Arith K rel) {d : Raw T} {d' : Raw S} (hd : RawRel rel d d') (jvpShape broadcastShape inputShape : List Nat)
    {g : Raw T} {g' : Raw S} (hg : RawRel rel g g') (dim0 n : Nat) (idx orig : List Nat) {l : List T} {l' : List S} (h : List.Forall₂ rel l l') :
    SameOutcome (List.Forall₂ rel) (diagLoop d jvpShape broadcastShape inputShape g dim0 n idx orig l)
      (diagLoop d' jvpShape broadcastShape inputShape g' dim0 n idx orig l') := by
  induction n generalizing idx orig l l' with
  | zero => exact rfl
  | succ n ih =>
    rw [diagLoop, diagLoop, hd.2]
    refine SameOutcome.same _ fun j1 => (SameOutcome.foldlM_same (Q := List.Forall₂ rel) _ (fun s s' i hs => ?_) h).bind fun a b hab => ?_
    · refine SameOutcome.same _ fun o => SameOutcome.same _ fun oj => (Raw.at_rel hg _).bind fun _ _ h1 => (Raw.at_rel hd _).bind fun _ _ h2 => ?_
      exact addAt_rel H hs _ (H.mul h2 h1)
    · refine SameOutcome.same _ fun p => ?_
      obtain ⟨idx', more⟩ := p
      refine SameOutcome.ite Iff.rfl (fun _ => ?_) fun _ => hab
      refine SameOutcome.same _ fun p => ?_
      obtain ⟨orig', more'⟩ := p
      exact SameOutcome.same _ fun _ => ih _ _ hab

theorem jvpFromDiagonalBroadcast_rel (H : Arith K rel) {d : Raw T} {d' : Raw S} (hd : RawRel rel d d') (jvpShape : Option (List Nat))
    (broadcastShape inputShape : List Nat) {g : Raw T} {g' : Raw S} (hg : RawRel rel g g') :
    SameOutcome (RawRel rel) (jvpFromDiagonalBroadcast d jvpShape broadcastShape inputShape g)
      (jvpFromDiagonalBroadcast d' jvpShape broadcastShape inputShape g') := by
  rw [jvpFromDiagonalBroadcast, jvpFromDiagonalBroadcast]
  simp only [hg.2, hd.2, forall₂_length hd.1]
  refine SameOutcome.same _ fun _ => SameOutcome.ite Iff.rfl (fun _ => ?_) fun _ => ?_ <;>
  · refine SameOutcome.same _ fun dim0 => SameOutcome.same _ fun s0 => SameOutcome.same _ fun _ => SameOutcome.same _ fun s1 => ?_
    exact (diagLoop_rel H hd _ _ _ hg _ _ _ _ (forall₂_replicate H.zero _)).bind fun _ _ h => Raw.new_rel h _

theorem gradDim0_rel {g : Raw T} {g' : Raw S} (hg : RawRel rel g g') : gradDim0 g = gradDim0 g' := by
  rw [gradDim0, gradDim0, hg.2]

theorem genericBinopJvp_rel (H : Arith K rel) {l r g : Raw T} {l' r' g' : Raw S} (hl : RawRel rel l l') (hr : RawRel rel r r') (hg : RawRel rel g g')
    {f : T → T → T} {f' : S → S → S} (hf : ∀ {a b c d}, rel a c → rel b d → rel (f a b) (f' c d)) :
    SameOutcome (List.Forall₂ (RawRel rel)) (genericBinopJvp l r g f) (genericBinopJvp l' r' g' f') := by
  rw [genericBinopJvp, genericBinopJvp]
  simp only [hl.2, hr.2, hg.2, forall₂_length hl.1, forall₂_length hr.1, gradDim0_rel hg]
  have key : ∀ dim0, SameOutcome (List.Forall₂ (RawRel rel))
      (do
        let array ← forIndices (maxShape l'.shape r'.shape) [] (fun acc idx => do
          let l ← unwrapR (l.get idx)
          let r ← unwrapR (r.get idx)
          return acc ++ [f l r])
        let diag ← Raw.new array [1, (maxShape l'.shape r'.shape).prod]
        let leftJvp ← jvpFromDiagonalBroadcast diag (some [dim0, l'.array.length]) (maxShape l'.shape r'.shape) l'.shape g
        let rightJvp ← jvpFromDiagonalBroadcast diag (some [dim0, r'.array.length]) (maxShape l'.shape r'.shape) r'.shape g
        return [leftJvp, rightJvp])
      (do
        let array ← forIndices (maxShape l'.shape r'.shape) [] (fun acc idx => do
          let l ← unwrapR (l'.get idx)
          let r ← unwrapR (r'.get idx)
          return acc ++ [f' l r])
        let diag ← Raw.new array [1, (maxShape l'.shape r'.shape).prod]
        let leftJvp ← jvpFromDiagonalBroadcast diag (some [dim0, l'.array.length]) (maxShape l'.shape r'.shape) l'.shape g'
        let rightJvp ← jvpFromDiagonalBroadcast diag (some [dim0, r'.array.length]) (maxShape l'.shape r'.shape) r'.shape g'
        return [leftJvp, rightJvp]) := by
    intro dim0
    refine (SameOutcome.forIndices (Q := List.Forall₂ rel) _ (fun s s' idx hs => ?_) .nil).bind fun a b hab => (Raw.new_rel hab _).bind fun d d' hd => ?_
    · exact (Raw.get_rel hl idx).unwrap.bind fun _ _ h1 => (Raw.get_rel hr idx).unwrap.bind fun _ _ h2 => forall₂_append hs (.cons (hf h1 h2) .nil)
    · exact (jvpFromDiagonalBroadcast_rel H hd _ _ _ hg).bind fun _ _ h1 => (jvpFromDiagonalBroadcast_rel H hd _ _ _ hg).bind fun _ _ h2 =>
        .cons h1 (.cons h2 .nil)
  exact SameOutcome.ite Iff.rfl (fun _ => SameOutcome.same _ fun _ => SameOutcome.same _ fun _ => SameOutcome.same _ fun d => key d)
    fun _ => SameOutcome.same _ fun d => key d

theorem genericUnaryJvp_rel (H : Arith K rel) {rel' : T → S → Prop} {t g : Raw T} {t' g' : Raw S} (ht : RawRel rel' t t') (hg : RawRel rel g g')
    {f : T → T} {f' : S → S} (hf : ∀ a b, rel' a b → rel (f a) (f' b)) :
    SameOutcome (List.Forall₂ (RawRel rel)) (genericUnaryJvp t g f) (genericUnaryJvp t' g' f') := by
  rw [genericUnaryJvp, genericUnaryJvp]
  simp only [ht.2, forall₂_length ht.1, gradDim0_rel hg]
  refine SameOutcome.same _ fun d => (SameOutcome.forIndices (Q := List.Forall₂ rel) _ (fun s s' idx hs => ?_) .nil).bind fun a b hab =>
    (Raw.new_rel hab _).bind fun d d' hd => ?_
  · exact (Raw.get_rel ht idx).unwrap.bind fun _ _ h1 => forall₂_append hs (.cons (hf _ _ h1) .nil)
  · exact (jvpFromDiagonalBroadcast_rel H hd _ _ _ hg).bind fun _ _ h1 => .cons h1 .nil

section kinds

variable {ts gs : List (Raw T)} {ts' gs' : List (Raw S)} (ht : List.Forall₂ (RawRel rel) ts ts') (hg : List.Forall₂ (RawRel rel) gs gs')

include ht hg

theorem addJvp_rel (H : Arith K rel) : SameOutcome (List.Forall₂ (RawRel rel)) (addJvp ts gs) (addJvp ts' gs') := by
  rw [addJvp, addJvp, forall₂_length ht, forall₂_length hg]
  exact SameOutcome.same _ fun _ => SameOutcome.same _ fun _ => (SameOutcome.idx ht _).bind fun _ _ h1 => (SameOutcome.idx ht _).bind fun _ _ h2 =>
    (SameOutcome.idx hg _).bind fun _ _ h3 => genericBinopJvp_rel H h1 h2 h3 fun _ _ => H.one

theorem negJvp_rel (H : Arith K rel) (hK : K .neg) : SameOutcome (List.Forall₂ (RawRel rel)) (negJvp ts gs) (negJvp ts' gs') := by
  rw [negJvp, negJvp]
  exact (SameOutcome.idx ht _).bind fun _ _ h1 => (SameOutcome.idx hg _).bind fun _ _ h2 => genericUnaryJvp_rel H h1 h2 fun _ _ _ => H.neg hK H.one

theorem onesJvp_rel (H : Arith K rel) : SameOutcome (List.Forall₂ (RawRel rel)) (onesJvp ts gs) (onesJvp ts' gs') := by
  rw [onesJvp, onesJvp, forall₂_length ht, forall₂_length hg]
  refine SameOutcome.same _ fun _ => SameOutcome.same _ fun _ => (SameOutcome.idx ht _).bind fun _ _ h1 => (SameOutcome.idx hg _).bind fun _ _ h2 => ?_
  rw [h1.2, h2.2]
  exact .cons (Raw.newWithFiller_rel _ H.one) .nil

omit ht hg in
theorem jvpFromFullJacobians_rel (H : Arith K rel) {l r : Raw T} {l' r' : Raw S} (hl : RawRel rel l l') (hr : RawRel rel r r') :
    SameOutcome (RawRel rel) (jvpFromFullJacobians l r) (jvpFromFullJacobians l' r') := by
  rw [jvpFromFullJacobians, jvpFromFullJacobians, Raw.isScalar, Raw.isScalar, Raw.isScalar, Raw.isScalar, hl.2, hr.2, forall₂_length hl.1, forall₂_length hr.1]
  exact SameOutcome.ite Iff.rfl (fun _ => SameOutcome.same _ fun _ => mulRaw_rel H.mul hl (.raw hr)) fun _ => bmmRaw_rel H.zero H.add H.mul (.raw hl) (.raw hr)

theorem dotJvp_rel (H : Arith K rel) : SameOutcome (List.Forall₂ (RawRel rel)) (dotJvp ts gs) (dotJvp ts' gs') := by
  rw [dotJvp, dotJvp, forall₂_length ht, forall₂_length hg]
  exact SameOutcome.same _ fun _ => (SameOutcome.idx ht _).bind fun _ _ h1 => (SameOutcome.idx ht _).bind fun _ _ h2 => (SameOutcome.idx hg _).bind fun _ _ h3 =>
    (jvpFromFullJacobians_rel H h3 h2).bind fun _ _ h4 => (jvpFromFullJacobians_rel H h3 h1).bind fun _ _ h5 => .cons h4 (.cons h5 .nil)

omit ht hg

/-- Messages to the same cell with related values. -/
def MsgRel (rel : T → S → Prop) (m : Msg T) (n : Msg S) : Prop := m.right = n.right ∧ m.globalIdx = n.globalIdx ∧ rel m.val n.val

theorem bmmJvpTask_rel (H : Arith K rel) {a b jac : Raw T} {a' b' jac' : Raw S} (h1 : RawRel rel a a') (h2 : RawRel rel b b') (h3 : RawRel rel jac jac')
    (sh : BmmJvpShapes) (i k j : Nat) :
    SameOutcome (List.Forall₂ (MsgRel rel)) (bmmJvpTask a b jac sh i k j) (bmmJvpTask a' b' jac' sh i k j) := by
  rw [bmmJvpTask, bmmJvpTask, h1.2, h2.2, h3.2]
  refine SameOutcome.same _ fun _ => SameOutcome.same _ fun _ => SameOutcome.same _ fun _ => SameOutcome.same _ fun _ => SameOutcome.same _ fun _ =>
    SameOutcome.same _ fun _ => SameOutcome.same _ fun _ => SameOutcome.same _ fun _ => SameOutcome.same _ fun _ => SameOutcome.same _ fun j0 => ?_
  refine SameOutcome.foldlM_same _ (fun s s' x hs => ?_) .nil
  refine SameOutcome.same _ fun _ => (Raw.at_rel h3 _).bind fun _ _ e1 => (Raw.at_rel h2 _).bind fun _ _ e2 => SameOutcome.same _ fun _ =>
    (Raw.at_rel h1 _).bind fun _ _ e3 => ?_
  exact forall₂_append hs (.cons ⟨rfl, rfl, H.mul e1 e2⟩ (.cons ⟨rfl, rfl, H.mul e1 e3⟩ .nil))

theorem bmmJvpTasks_rel (H : Arith K rel) {a b jac : Raw T} {a' b' jac' : Raw S} (h1 : RawRel rel a a') (h2 : RawRel rel b b') (h3 : RawRel rel jac jac')
    (sh : BmmJvpShapes) :
    SameOutcome (List.Forall₂ (List.Forall₂ (MsgRel rel))) (bmmJvpTasks a b jac sh) (bmmJvpTasks a' b' jac' sh) := by
  rw [bmmJvpTasks, bmmJvpTasks, h1.2, h2.2]
  refine SameOutcome.same _ fun _ => SameOutcome.same _ fun _ => SameOutcome.same _ fun _ => ?_
  refine SameOutcome.foldlM_same _ (fun s s' i hs => SameOutcome.foldlM_same _ (fun s s' k hs => SameOutcome.foldlM_same _ (fun s s' j hs => ?_) hs) hs) .nil
  exact (bmmJvpTask_rel H h1 h2 h3 sh i k j).bind fun _ _ h => forall₂_append hs (.cons h .nil)

theorem deliver_rel (H : Arith K rel) {p : List T × List T} {q : List S × List S} (h1 : List.Forall₂ rel p.1 q.1) (h2 : List.Forall₂ rel p.2 q.2)
    {m : Msg T} {n : Msg S} (h : MsgRel rel m n) :
    SameOutcome (fun p q => List.Forall₂ rel p.1 q.1 ∧ List.Forall₂ rel p.2 q.2) (deliver p m) (deliver q n) := by
  rw [deliver, deliver, h.1, h.2.1, forall₂_length h1, forall₂_length h2]
  refine SameOutcome.ite Iff.rfl (fun _ => SameOutcome.same _ fun seg => ?_) fun _ => SameOutcome.same _ fun seg => ?_
  · rw [segmentWrite, segmentWrite, forall₂_length h2]
    refine SameOutcome.bind (P := List.Forall₂ rel) ?_ fun _ _ h3 => ⟨h1, h3⟩
    refine SameOutcome.same _ fun w => ?_
    obtain ⟨start, len⟩ := w
    exact SameOutcome.same _ fun _ => SameOutcome.same _ fun _ => addAt_rel H h2 _ h.2.2
  · rw [segmentWrite, segmentWrite, forall₂_length h1]
    refine SameOutcome.bind (P := List.Forall₂ rel) ?_ fun _ _ h3 => ⟨h3, h2⟩
    refine SameOutcome.same _ fun w => ?_
    obtain ⟨start, len⟩ := w
    exact SameOutcome.same _ fun _ => SameOutcome.same _ fun _ => addAt_rel H h1 _ h.2.2

theorem bmmJvp_rel (H : Arith K rel) (ht : List.Forall₂ (RawRel rel) ts ts') (hg : List.Forall₂ (RawRel rel) gs gs') :
    SameOutcome (List.Forall₂ (RawRel rel)) (bmmJvp ts gs) (bmmJvp ts' gs') := by
  rw [bmmJvp, bmmJvp, forall₂_length ht, forall₂_length hg]
  refine SameOutcome.same _ fun _ => (SameOutcome.idx ht _).bind fun a a' h1 => (SameOutcome.idx ht _).bind fun b b' h2 => (SameOutcome.idx hg _).bind fun j j' h3 => ?_
  have e : bmmJvpShapes a b j = bmmJvpShapes a' b' j' := by rw [bmmJvpShapes, bmmJvpShapes, h1.2, h2.2, h3.2]
  rw [e]
  refine SameOutcome.same _ fun sh => (bmmJvpTasks_rel H h1 h2 h3 sh).bind fun tasks tasks' h4 => ?_
  refine (SameOutcome.foldlM (Q := fun p q => List.Forall₂ rel p.1 q.1 ∧ List.Forall₂ rel p.2 q.2) (forall₂_flatten h4)
    (fun s s' m n hs hmn => deliver_rel H hs.1 hs.2 hmn) ⟨forall₂_replicate H.zero _, forall₂_replicate H.zero _⟩).bind ?_
  rintro ⟨l, r⟩ ⟨l', r'⟩ ⟨h5, h6⟩
  exact (Raw.new_rel h5 _).bind fun _ _ h7 => (Raw.new_rel h6 _).bind fun _ _ h8 => .cons h7 (.cons h8 .nil)

variable [Sub T] [LT T] [DecidableLT T] [LE T] [DecidableLE T] [RealFn T] [Sub S] [LT S] [DecidableLT S] [LE S] [DecidableLE S] [RealFn S]

theorem reluJvp_rel (H : Arith K rel) (F : Functions K rel) (hK : K .relu) (ht : List.Forall₂ (RawRel rel) ts ts') (hg : List.Forall₂ (RawRel rel) gs gs') :
    SameOutcome (List.Forall₂ (RawRel rel)) (reluJvp ts gs) (reluJvp ts' gs') := by
  rw [reluJvp, reluJvp, forall₂_length ht, forall₂_length hg]
  exact SameOutcome.same _ fun _ => SameOutcome.same _ fun _ => (SameOutcome.idx ht _).bind fun _ _ h1 => (SameOutcome.idx hg _).bind fun _ _ h2 =>
    genericUnaryJvp_rel H h1 h2 fun a b h => (F.relu hK a b h).2

theorem absJvp_rel (H : Arith K rel) (F : Functions K rel) (hK : K .abs) (ht : List.Forall₂ (RawRel rel) ts ts') (hg : List.Forall₂ (RawRel rel) gs gs') :
    SameOutcome (List.Forall₂ (RawRel rel)) (absJvp ts gs) (absJvp ts' gs') := by
  rw [absJvp, absJvp, forall₂_length ht, forall₂_length hg]
  refine SameOutcome.same _ fun _ => SameOutcome.same _ fun _ => (SameOutcome.idx hg _).bind fun _ _ h2 => ?_
  rw [h2.2]
  exact SameOutcome.same _ fun _ => (SameOutcome.idx ht _).bind fun _ _ h1 => genericUnaryJvp_rel H h1 h2 fun a b h => (F.abs hK a b h).2

theorem tanhJacobian_rel (H : Arith K rel) (F : Functions K rel) (hK : K .tanh) {t : Raw T} {t' : Raw S} (h : RawRel rel t t') :
    SameOutcome (RawRel rel) (tanhJacobian t) (tanhJacobian t') := by
  rw [tanhJacobian, tanhJacobian, h.2]
  refine (SameOutcome.foldlM_same (Q := List.Forall₂ rel) _ (fun s s' i hs => SameOutcome.foldlM_same _ (fun s s' j hs => ?_) hs) .nil).bind fun _ _ h1 =>
    Raw.new_rel h1 _
  refine SameOutcome.ite Iff.rfl (fun _ => ?_) fun _ => forall₂_append hs (.cons H.zero .nil)
  exact (SameOutcome.idx h.1 i).bind fun _ _ h1 => forall₂_append hs (.cons (F.tanh hK _ _ h1).2 .nil)

theorem tanhJvp_rel (H : Arith K rel) (F : Functions K rel) (hK : K .tanh) (ht : List.Forall₂ (RawRel rel) ts ts') (hg : List.Forall₂ (RawRel rel) gs gs') :
    SameOutcome (List.Forall₂ (RawRel rel)) (tanhJvp ts gs) (tanhJvp ts' gs') := by
  rw [tanhJvp, tanhJvp, forall₂_length ht, forall₂_length hg]
  exact SameOutcome.same _ fun _ => SameOutcome.same _ fun _ => (SameOutcome.idx ht _).bind fun _ _ h1 => (tanhJacobian_rel H F hK h1).bind fun _ _ h2 =>
    (SameOutcome.idx hg _).bind fun _ _ h3 => (jvpFromFullJacobians_rel H h3 h2).bind fun _ _ h4 => .cons h4 .nil

theorem applyJvp_rel (H : Arith K rel) (F : Functions K rel) (k : JvpKind) (hK : K k) (ht : List.Forall₂ (RawRel rel) ts ts')
    (hg : List.Forall₂ (RawRel rel) gs gs') : SameOutcome (List.Forall₂ (RawRel rel)) (applyJvp k ts gs) (applyJvp k ts' gs') := by
  cases k with
  | add => exact addJvp_rel ht hg H
  | neg => exact negJvp_rel ht hg H hK
  | relu => exact reluJvp_rel H F hK ht hg
  | abs => exact absJvp_rel H F hK ht hg
  | tanh => exact tanhJvp_rel H F hK ht hg
  | sum => exact onesJvp_rel ht hg H
  | bmm => exact bmmJvp_rel H ht hg
  | dot => exact dotJvp_rel ht hg H

end kinds

end RL
