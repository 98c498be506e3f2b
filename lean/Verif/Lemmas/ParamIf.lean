import Verif.Lemmas.ParamGraph
import Verif.Lemmas.Ops3

/-!
# Two runs of the same program that compare elements: what is needed at the comparisons

`Functions` asks that `relu`, `abs` and `tanh` keep the relation for all elements. Here it is only asked for elements with `D`, which the
inputs of these operations have in the graph at the end of the run.
-/

namespace RL

open Spec

variable {T S : Type} {rel : T → S → Prop} {D : JvpKind → T → S → Prop}

/-- `Functions` for elements with `D`. -/
structure FunctionsIf (D : JvpKind → T → S → Prop) (rel : T → S → Prop)
    [Zero T] [One T] [Sub T] [LT T] [DecidableLT T] [LE T] [DecidableLE T] [RealFn T]
    [Zero S] [One S] [Sub S] [LT S] [DecidableLT S] [LE S] [DecidableLE S] [RealFn S] : Prop where
  relu : ∀ a x, rel a x → D .relu a x →
    rel (if a < 0 then 0 else a) (if x < 0 then 0 else x) ∧ rel (if a < 0 then 0 else 1) (if x < 0 then 0 else 1)
  abs : ∀ a x, rel a x → D .abs a x → rel (RealFn.abs a) (RealFn.abs x) ∧ rel (if a ≥ 0 then 1 else 0 - 1) (if x ≥ 0 then 1 else 0 - 1)
  tanh : ∀ a x, rel a x → D .tanh a x →
    rel (RealFn.tanh a) (RealFn.tanh x) ∧ rel (1 - RealFn.powi2 (RealFn.tanh a)) (1 - RealFn.powi2 (RealFn.tanh x))
  other : ∀ k a x, k ≠ .relu → k ≠ .abs → k ≠ .tanh → D k a x

/-- The elements of recorded inputs have `D`. -/
def ClearIn (D : JvpKind → T → S → Prop) (g : Heap T) (h : Heap S) : Prop :=
  ∀ (i : Nat) (m : Node T) (d : Deriv), g[i]? = some m → m.gradFn = some d → ∀ p ∈ d.inputs, ∃ a b, g[p]? = some a ∧ h[p]? = some b ∧
    List.Forall₂ (D d.kind) a.val.array b.val.array

theorem forall₂_and {α β : Type _} {P Q : α → β → Prop} {l : List α} {l' : List β} (h1 : List.Forall₂ P l l') (h2 : List.Forall₂ Q l l') :
    List.Forall₂ (fun a b => P a b ∧ Q a b) l l' := by
  induction h1 with
  | nil => exact .nil
  | cons h _ ih => cases h2 with | cons k ks => exact .cons ⟨h, k⟩ (ih ks)

theorem forall₂_all {α β : Type _} {P Q : α → β → Prop} {l : List α} {l' : List β} (h1 : List.Forall₂ P l l') (h2 : ∀ a b, Q a b) :
    List.Forall₂ Q l l' := h1.imp fun _ _ _ => h2 _ _

theorem Spec.SameOutcome.bind_ok {α α' β β' : Type} {P : α → α' → Prop} {Q : β → β' → Prop} {x : R α} {y : R α'} {f : α → R β} {g : α' → R β'}
    (h : SameOutcome P x y) (hf : ∀ a b, x = .ok a → y = .ok b → P a b → SameOutcome Q (f a) (g b)) : SameOutcome Q (x >>= f) (y >>= g) := by
  cases x <;> cases y <;> first | exact h.elim | (cases h; rfl) | exact hf _ _ rfl rfl h

theorem forall₂_get {α β : Type _} {P : α → β → Prop} {l : List α} {l' : List β} (h : List.Forall₂ P l l') {i : Nat} {a : α}
    (ha : l[i]? = some a) : ∃ b, l'[i]? = some b ∧ P a b := by
  induction h generalizing i with
  | nil => simp at ha
  | cons h _ ih =>
    cases i with
    | zero => simp only [List.getElem?_cons_zero, Option.some.injEq] at ha ⊢; subst ha; exact ⟨_, rfl, h⟩
    | succ i => simp only [List.getElem?_cons_succ] at ha ⊢; exact ih ha

theorem getElem?_append_some {α : Type _} {l m : List α} {i : Nat} {a : α} (h : l[i]? = some a) : (l ++ m)[i]? = some a := by
  rw [List.getElem?_append_left (List.getElem?_eq_some_iff.1 h).1, h]

theorem ClearIn.alloc {g : Heap T} {h : Heap S} (hc : ClearIn D g h) (n : Node T) (n' : Node S)
    (hn : ∀ d, n.gradFn = some d → ∀ p ∈ d.inputs, ∃ a b, g[p]? = some a ∧ h[p]? = some b ∧ List.Forall₂ (D d.kind) a.val.array b.val.array) :
    ClearIn D (g ++ [n]) (h ++ [n']) := by
  intro i m d hm hd p hp
  have key : ∃ a b, g[p]? = some a ∧ h[p]? = some b ∧ List.Forall₂ (D d.kind) a.val.array b.val.array := by
    rcases Nat.lt_or_ge i g.length with hi | hi
    · rw [List.getElem?_append_left hi] at hm
      exact hc i m d hm hd p hp
    · rw [List.getElem?_append_right hi] at hm
      have : i - g.length = 0 := by
        by_contra h0
        rw [List.getElem?_eq_none (by simp; omega)] at hm
        cases hm
      rw [this] at hm
      simp only [List.getElem?_cons_zero, Option.some.injEq] at hm
      subst hm
      exact hn d hd p hp
  obtain ⟨a, b, h1, h2, h3⟩ := key
  exact ⟨a, b, getElem?_append_some h1, getElem?_append_some h2, h3⟩

theorem set_grad_get {h : Heap T} {t : Nat} {n : Node T} (hn : h[t]? = some n) (o : Option Nat) (i : Nat) :
    (h.set t { n with grad := o })[i]? = (h[i]?).map fun m => if t = i then { m with grad := o } else m := by
  by_cases hi : t = i
  · subst hi
    obtain ⟨hl, -⟩ := List.getElem?_eq_some_iff.1 hn
    simp [hl, ← (List.getElem?_eq_some_iff.1 hn).2]
  · rw [List.getElem?_set_ne hi]
    simp [hi]

theorem ClearIn.set {g : Heap T} {h : Heap S} (hc : ClearIn D g h) {t : Nat} {n : Node T} {n' : Node S} (hn : g[t]? = some n) (hn' : h[t]? = some n')
    (o o' : Option Nat) : ClearIn D (g.set t { n with grad := o }) (h.set t { n' with grad := o' }) := by
  intro i m d hm hd p hp
  rw [set_grad_get hn, Option.map_eq_some_iff] at hm
  obtain ⟨m0, hm0, rfl⟩ := hm
  have hd0 : m0.gradFn = some d := by
    split at hd <;> exact hd
  obtain ⟨a, b, h1, h2, h3⟩ := hc i m0 d hm0 hd0 p hp
  rw [set_grad_get hn, set_grad_get hn', h1, h2]
  refine ⟨_, _, rfl, rfl, ?_⟩
  split <;> exact h3

/-- Related heaps in which recorded inputs have `D`. -/
def HeapIf (D : JvpKind → T → S → Prop) (rel : T → S → Prop) (g : Heap T) (h : Heap S) : Prop :=
  HeapRel (fun _ => True) rel g h ∧ ClearIn D g h

/-- Results of functions that return a tensor. -/
def ResIf (D : JvpKind → T → S → Prop) (rel : T → S → Prop) (p : Heap T × Nat) (q : Heap S × Nat) : Prop := HeapIf D rel p.1 q.1 ∧ p.2 = q.2

/-- `HeapRel` for all operations -/
abbrev HeapAll (rel : T → S → Prop) (g : Heap T) (h : Heap S) : Prop := HeapRel (fun _ => True) rel g h

abbrev ResAll (rel : T → S → Prop) (p : Heap T × Nat) (q : Heap S × Nat) : Prop := ResRel (fun _ => True) rel p q

theorem node_both {g : Heap T} {h : Heap S} (hh : HeapAll rel g h) (t : Nat) :
    SameOutcome (fun m n => g[t]? = some m ∧ h[t]? = some n ∧ NodeRel (fun _ => True) rel m n) (g.node t) (h.node t) := by
  rw [Heap.node, Heap.node, idxR, idxR]
  cases e : g[t]? with
  | none =>
    have : h[t]? = none := by
      rw [List.getElem?_eq_none_iff] at e ⊢
      rw [← forall₂_length hh]
      exact e
    rw [this]
    exact rfl
  | some m =>
    obtain ⟨n, h1, h2⟩ := forall₂_get hh e
    rw [h1]
    exact ⟨rfl, rfl, h2⟩

theorem leaf_if {g : Heap T} {h : Heap S} (hh : HeapIf D rel g h) {a : Raw T} {b : Raw S} (hab : RawRel rel a b) : ResIf D rel (g.leaf a) (h.leaf b) := by
  have h1 := leaf_rel hh.1 hab
  refine ⟨⟨h1.1, hh.2.alloc _ _ fun d hd => ?_⟩, h1.2⟩
  cases hd

section jvps

variable [Zero T] [One T] [Add T] [Mul T] [Neg T] [Zero S] [One S] [Add S] [Mul S] [Neg S]
  [Sub T] [LT T] [DecidableLT T] [LE T] [DecidableLE T] [RealFn T] [Sub S] [LT S] [DecidableLT S] [LE S] [DecidableLE S] [RealFn S]
  (H : Arith (fun _ => True) rel) (F : FunctionsIf D rel)

include H F

theorem addT_if {g : Heap T} {h : Heap S} (hh : HeapIf D rel g h) (l r : Nat) : SameOutcome (ResIf D rel) (addT g l r) (addT h l r) := by
  rw [addT, addT]
  refine (node_both hh.1 l).bind fun m n h1 => (node_both hh.1 r).bind fun m' n' h2 =>
    (genericBinopRaw_rel H.zero (.raw h1.2.2.1) (.raw h2.2.2.1) H.add).bind fun a b h3 => ?_
  have h4 := alloc_op_rel hh.1 h3 [l, r] .add trivial
  refine ⟨⟨h4.1, hh.2.alloc _ _ ?_⟩, h4.2⟩
  intro d hd p hp
  cases hd
  have hD : ∀ a b, D .add a b := fun a b => F.other _ _ _ (by simp) (by simp) (by simp)
  simp only [List.mem_cons, List.not_mem_nil, or_false] at hp
  rcases hp with rfl | rfl
  · exact ⟨m, n, h1.1, h1.2.1, forall₂_all h1.2.2.1.1 hD⟩
  · exact ⟨m', n', h2.1, h2.2.1, forall₂_all h2.2.2.1.1 hD⟩

omit H F in
theorem getElem?_addT {g : Heap T} {l r t : Nat} {p : Heap T × Nat} (e : addT g l r = .ok p) {n : Node T} (hn : g[t]? = some n) : p.1[t]? = some n := by
  rw [addT] at e
  simp only [R.bind_eq_ok] at e
  obtain ⟨_, _, _, _, _, _, e⟩ := e
  cases e
  exact getElem?_append_some hn

theorem updateGrad_if {g : Heap T} {h : Heap S} (hh : HeapIf D rel g h) (t i : Nat) : SameOutcome (HeapIf D rel) (updateGrad g t i) (updateGrad h t i) := by
  rw [updateGrad, updateGrad]
  refine (node_both hh.1 t).bind fun n n' h1 => ?_
  rw [h1.2.2.2.1]
  cases n'.grad with
  | none => exact ⟨set_grad_rel hh.1 h1.2.2 t _, hh.2.set h1.1 h1.2.1 _ _⟩
  | some o =>
    refine (addT_if H F hh o i).bind_ok ?_
    rintro ⟨k, a⟩ ⟨k', a'⟩ e1 e2 ⟨h2, h3⟩
    cases h3
    exact ⟨set_grad_rel h2.1 h1.2.2 t _, h2.2.set (getElem?_addT e1 h1.1) (getElem?_addT e2 h1.2.1) _ _⟩

theorem applyJvp_if (k : JvpKind) {ts gs : List (Raw T)} {ts' gs' : List (Raw S)}
    (ht : List.Forall₂ (fun a b => RawRel rel a b ∧ List.Forall₂ (D k) a.array b.array) ts ts') (hg : List.Forall₂ (RawRel rel) gs gs') :
    SameOutcome (List.Forall₂ (RawRel rel)) (applyJvp k ts gs) (applyJvp k ts' gs') := by
  have ht0 : List.Forall₂ (RawRel rel) ts ts' := ht.imp fun _ _ h => h.1
  have both : ∀ {a : Raw T} {b : Raw S}, RawRel rel a b ∧ List.Forall₂ (D k) a.array b.array → RawRel (fun x y => rel x y ∧ D k x y) a b :=
    fun h => ⟨forall₂_and h.1.1 h.2, h.1.2⟩
  cases k with
  | add => exact addJvp_rel ht0 hg H
  | neg => exact negJvp_rel ht0 hg H trivial
  | sum => exact onesJvp_rel ht0 hg H
  | bmm => exact bmmJvp_rel H ht0 hg
  | dot => exact dotJvp_rel ht0 hg H
  | relu =>
    rw [applyJvp, applyJvp, reluJvp, reluJvp, forall₂_length ht, forall₂_length hg]
    exact SameOutcome.same _ fun _ => SameOutcome.same _ fun _ => (SameOutcome.idx ht _).bind fun _ _ h1 => (SameOutcome.idx hg _).bind fun _ _ h2 =>
      genericUnaryJvp_rel H (both h1) h2 fun a b h => (F.relu a b h.1 h.2).2
  | abs =>
    rw [applyJvp, applyJvp, absJvp, absJvp, forall₂_length ht, forall₂_length hg]
    refine SameOutcome.same _ fun _ => SameOutcome.same _ fun _ => (SameOutcome.idx hg _).bind fun _ _ h2 => ?_
    rw [h2.2]
    exact SameOutcome.same _ fun _ => (SameOutcome.idx ht _).bind fun _ _ h1 => genericUnaryJvp_rel H (both h1) h2 fun a b h => (F.abs a b h.1 h.2).2
  | tanh =>
    rw [applyJvp, applyJvp, tanhJvp, tanhJvp, forall₂_length ht, forall₂_length hg]
    refine SameOutcome.same _ fun _ => SameOutcome.same _ fun _ => (SameOutcome.idx ht _).bind fun a b h1 => SameOutcome.bind (P := RawRel rel) ?_ fun _ _ h2 =>
      (SameOutcome.idx hg _).bind fun _ _ h3 => (jvpFromFullJacobians_rel H h3 h2).bind fun _ _ h4 => .cons h4 .nil
    rw [tanhJacobian, tanhJacobian, h1.1.2]
    refine (SameOutcome.foldlM_same (Q := List.Forall₂ rel) _ (fun s s' i hs => SameOutcome.foldlM_same _ (fun s s' j hs => ?_) hs) .nil).bind
      fun _ _ h1 => Raw.new_rel h1 _
    refine SameOutcome.ite Iff.rfl (fun _ => ?_) fun _ => forall₂_append hs (.cons H.zero .nil)
    exact (SameOutcome.idx (both h1).1 i).bind fun _ _ h1 => forall₂_append hs (.cons (F.tanh _ _ h1.1 h1.2).2 .nil)

theorem computeJvp_if (n : Nat) {g : Heap T} {h : Heap S} (hh : HeapIf D rel g h) (d : Deriv)
    (hd : ∀ p ∈ d.inputs, ∃ a b, g[p]? = some a ∧ h[p]? = some b ∧ List.Forall₂ (D d.kind) a.val.array b.val.array)
    {gs : List (Raw T)} {gs' : List (Raw S)} (hg : List.Forall₂ (RawRel rel) gs gs') :
    SameOutcome (HeapIf D rel) (computeJvp n g d gs) (computeJvp n h d gs') := by
  induction n generalizing g h d gs gs' with
  | zero => exact rfl
  | succ n ih =>
    rw [computeJvp, computeJvp]
    refine SameOutcome.bind (P := List.Forall₂ fun a b => RawRel rel a b ∧ List.Forall₂ (D d.kind) a.array b.array) ?_ fun ins ins' hi =>
      (applyJvp_if H F d.kind hi hg).bind fun sg sg' hs => ?_
    · have hl : List.Forall₂ (fun i j => i = j ∧ i ∈ d.inputs) d.inputs d.inputs := by
        have : ∀ l : List Nat, (∀ i ∈ l, i ∈ d.inputs) → List.Forall₂ (fun i j => i = j ∧ i ∈ d.inputs) l l := by
          intro l
          induction l with
          | nil => intro _; exact .nil
          | cons a l ih2 => exact fun h => .cons ⟨rfl, h a (by simp)⟩ (ih2 fun i hi => h i (by simp [hi]))
        exact this _ fun _ h => h
      refine SameOutcome.mapM hl ?_
      rintro i _ ⟨rfl, hi⟩
      refine (node_both hh.1 i).bind fun m m' h1 => ?_
      obtain ⟨a, b, k1, k2, k3⟩ := hd i hi
      rw [h1.1] at k1
      rw [h1.2.1] at k2
      cases k1
      cases k2
      exact ⟨h1.2.2.1, k3⟩
    · have hz : List.Forall₂ (fun p q => RawRel rel p.1 q.1 ∧ p.2 = q.2) (sg.zip d.inputs) (sg'.zip d.inputs) := by
        generalize d.inputs = l
        induction hs generalizing l with
        | nil => exact .nil
        | cons h1 _ ih1 =>
          cases l with
          | nil => exact .nil
          | cons x l => exact .cons ⟨h1, rfl⟩ (ih1 l)
      refine SameOutcome.foldlM hz ?_ hh
      rintro k k' ⟨grad, i⟩ ⟨grad', i'⟩ hgg ⟨h1, h2⟩
      cases h2
      refine (node_both hgg.1 i).bind fun m m' hm => ?_
      rw [forall₂_length h1.1, forall₂_length hm.2.2.1.1, hm.2.2.1.2]
      refine SameOutcome.same _ fun _ => (Raw.new_rel h1.1 _).bind fun s s' hss => ?_
      have h4 := leaf_if hgg hss
      have h6 : (k.leaf s).2 = (k'.leaf s').2 := h4.2
      simp only [h6]
      have fr : ∀ {k1 : Heap T}, updateGrad (k.leaf s).1 i (k'.leaf s').2 = .ok k1 → ∃ o, k1[i]? = some { m with grad := o } := by
        intro k1 e1
        have e5 : (k.leaf s).1[i]? = some m := getElem?_append_some hm.1
        rw [updateGrad, Heap.node_eq_ok.2 e5, R.bind_ok] at e1
        cases hq : m.grad with
        | none =>
          rw [hq] at e1
          cases e1
          exact ⟨_, by rw [set_grad_get e5, e5]; simp; rfl⟩
        | some o =>
          rw [hq] at e1
          simp only [R.bind_eq_ok] at e1
          obtain ⟨p, e3, e4⟩ := e1
          cases e4
          have e6 := getElem?_addT e3 e5
          exact ⟨_, by rw [set_grad_get e6, e6]; simp; rfl⟩
      refine (updateGrad_if H F h4.1 i (k'.leaf s').2).bind_ok fun k1 k2 e1 e2 h7 => ?_
      obtain ⟨o, ho⟩ := fr e1
      rw [hm.2.2.2.2.1]
      cases e : m'.gradFn with
      | none => exact h7
      | some d' =>
        refine ih h7 d' (h7.2 i _ d' ho ?_) (.cons h1 .nil)
        change m.gradFn = some d'
        rw [hm.2.2.2.2.1, e]

theorem backward_if {g : Heap T} {h : Heap S} (hh : HeapIf D rel g h) (t : Nat) : SameOutcome (HeapIf D rel) (backward g t) (backward h t) := by
  rw [backward, backward]
  refine (node_both hh.1 t).bind fun n n' hn => ?_
  rw [forall₂_length hn.2.2.1.1, forall₂_length hh.1]
  refine SameOutcome.same _ fun _ => ?_
  rw [hn.2.2.2.2.1]
  cases e : n'.gradFn with
  | none => exact rfl
  | some d => exact computeJvp_if H F _ hh d (hh.2 t n d hn.1 (by rw [hn.2.2.2.2.1, e])) (.cons (Raw.scalar_rel H.one) .nil)

end jvps

end RL
