import Verif.SpecInts
import Verif.Lemmas.ParamInts
import Verif.Lemmas.PrecisionRun
import Verif.Lemmas.JvpSucc

/-!
# Programs with `relu` on integers
-/

namespace RL

open Spec

section

variable {T S : Type} [Zero T] [One T] [Add T] [Mul T] [Neg T] [Sub T] [LT T] [DecidableLT T] [LE T] [DecidableLE T] [RealFn T]
  [Zero S] [One S] [Add S] [Mul S] [Neg S] [Sub S] [LT S] [DecidableLT S] [LE S] [DecidableLE S] [RealFn S]

omit [Zero T] [One T] [Add T] [Mul T] [Neg T] [Sub T] [LT T] [DecidableLT T] [LE T] [DecidableLE T] [RealFn T]
  [Zero S] [One S] [Add S] [Mul S] [Neg S] [Sub S] [LT S] [DecidableLT S] [LE S] [DecidableLE S] [RealFn S] in
theorem opRel_weaken {K K' : JvpKind → Prop} {rel rel' : T → S → Prop} (hK : ∀ k, K k → K' k) (h1 : ∀ a x, rel a x → rel' a x)
    {o : Op T} {o' : Op S} (h : OpRel K rel o o') (h2 : (∀ a x, rel' a x) ∨ rel' = rel) : OpRel K' rel' o o' := by
  cases h
  case new s h => exact .new s (h.imp fun _ _ => h1 _ _)
  case rawUnary x h =>
    refine .rawUnary x fun a b hab => ?_
    rcases h2 with h2 | rfl
    · exact h2 _ _
    · exact h _ _ hab
  all_goals constructor <;> first | exact hK _ (by assumption) | exact h1 _ _ (by assumption)

omit [Zero T] [One T] [Add T] [Mul T] [Neg T] [Sub T] [LT T] [DecidableLT T] [LE T] [DecidableLE T] [RealFn T]
  [Zero S] [One S] [Add S] [Mul S] [Neg S] [Sub S] [LT S] [DecidableLT S] [LE S] [DecidableLE S] [RealFn S] in
theorem forall₂_of_get {E : T → S → Prop} : ∀ {l : List T} {l' : List S}, l.length = l'.length →
    (∀ (k : Nat) (a : T) (x : S), l[k]? = some a → l'[k]? = some x → E a x) → List.Forall₂ E l l'
  | [], [], _, _ => .nil
  | _ :: _, _ :: _, hl, h => .cons (h 0 _ _ rfl rfl) (forall₂_of_get (by simpa using hl) fun k a x h1 h2 => h (k + 1) a x h1 h2)

theorem runOps_atRelu {rel : T → S → Prop} {E : T → S → Prop} (H : Arith (fun _ => True) rel)
    (F : ∀ a x, rel a x → E a x → rel (if a < 0 then 0 else a) (if x < 0 then 0 else x) ∧ rel (if a < 0 then 0 else 1) (if x < 0 then 0 else 1))
    {ops : List (Op T)} {ops' : List (Op S)} (ho : List.Forall₂ (OpRel IntKind rel) ops ops') :
    SameOutcome (fun h h' => AtRelu E h h' → HeapRel IntKind rel h h') (runOps [] ops) (runOps [] ops') := by
  have h1 := runOps_rel (K := IntKind) (rel := fun (_ : T) (_ : S) => True) ⟨trivial, trivial, fun _ _ => trivial, fun _ _ => trivial, fun _ _ _ _ => trivial⟩
    ⟨fun _ _ _ _ => ⟨trivial, trivial⟩, fun _ _ _ _ => ⟨trivial, trivial⟩, fun _ _ _ _ => ⟨trivial, trivial⟩⟩ (h := []) (h' := []) .nil
    (ho.imp fun _ _ k => opRel_weaken (fun _ h => h) (fun _ _ _ => trivial) k (.inl fun _ _ => trivial))
  cases e1 : runOps [] ops with
  | error e =>
    rw [e1] at h1
    cases e2 : runOps [] ops' with
    | error e' => rw [e2] at h1; exact h1
    | ok b => rw [e2] at h1; exact h1.elim
  | ok g =>
    rw [e1] at h1
    cases e2 : runOps [] ops' with
    | error e' => rw [e2] at h1; exact h1.elim
    | ok h =>
      rw [e2] at h1
      intro hr
      have h1 : HeapRel IntKind (fun (_ : T) (_ : S) => True) g h := h1
      let D : JvpKind → T → S → Prop := fun k a x => match k with
        | .relu => E a x
        | .abs => False
        | .tanh => False
        | _ => True
      have FD : FunctionsIf D rel := ⟨F, fun _ _ _ h => h.elim, fun _ _ _ h => h.elim, fun k _ _ k1 k2 k3 => by cases k <;> first | trivial | contradiction⟩
      have hc : ClearIn D g h := by
        intro i m d hm hd p hp
        obtain ⟨m', hm', hn⟩ := forall₂_get h1 hm
        have hlt : p < g.length := lt_trans (((runOps_good e1) i m hm).older d hd p hp) (List.getElem?_eq_some_iff.1 hm).1
        obtain ⟨b, hb, hpb⟩ := forall₂_get h1 (List.getElem?_eq_getElem hlt)
        refine ⟨_, b, List.getElem?_eq_getElem hlt, hb, ?_⟩
        have hK := hn.2.2.2 d hd
        have triv : (∀ a x, D d.kind a x) → List.Forall₂ (D d.kind) g[p].val.array b.val.array := fun h => hpb.1.1.imp fun _ _ _ => h _ _
        cases hk : d.kind with
        | relu =>
          refine forall₂_of_get (forall₂_length hpb.1.1) (hr i d p _ _ (by simp [historyOf, hm, hd]) hk hp (by rw [dataOf, List.getElem?_eq_getElem hlt]; rfl) (by simp [dataOf, hb]))
        | abs => exact absurd hk hK.1
        | tanh => exact absurd hk hK.2
        | _ => rw [hk] at triv; exact triv fun _ _ => trivial
      have h2 := runOps_if H FD (ho.imp fun _ _ k => opRel_weaken (fun _ _ => trivial) (fun _ _ h => h) k (.inr rfl)) Heap.good_nil Heap.good_nil .nil e1 e2 hc
      have h3 : ∀ {l : Heap T} {l' : Heap S}, HeapRel IntKind (fun (_ : T) (_ : S) => True) l l' → HeapRel (fun _ => True) rel l l' → HeapRel IntKind rel l l' := by
        intro l l' k1 k2
        exact (forall₂_and k1 k2).imp fun _ _ k => ⟨k.2.1, k.2.2.1, k.2.2.2.1, k.1.2.2.2⟩
      exact h3 h1 h2

end

theorem heapRel_noOverflow {S : Type} {lo hi : Int} {rel rel' : Checked lo hi → S → Prop} {K : JvpKind → Prop} {g : Heap (Checked lo hi)}
    {h : Heap S} (hr' : ∀ a x, rel a x → a.val ≠ none → rel' a x) (hn : NoOverflow g) (hr : HeapRel K rel g h) : HeapRel K rel' g h := by
  induction hr with
  | nil => exact .nil
  | cons k _ ih =>
    refine .cons ⟨⟨?_, k.1.2⟩, k.2⟩ (ih fun n hm => hn n (List.mem_cons_of_mem _ hm))
    refine forall₂_of_get (forall₂_length k.1.1) fun j a x ha hx => ?_
    obtain ⟨x', hx', hax⟩ := forall₂_get k.1.1 ha
    cases hx.symm.trans hx'
    exact hr' _ _ hax (hn _ List.mem_cons_self a (List.mem_of_getElem? ha))

theorem atRelu_noOverflow {S : Type} {lo hi : Int} {g : Heap (Checked lo hi)} {h : Heap S} (hn : NoOverflow g) :
    AtRelu (fun (a : Checked lo hi) (_ : S) => a.val ≠ none) g h := by
  intro i d p v v' _ _ _ hv _ k a x ha _
  obtain ⟨n, hn', rfl⟩ := Option.map_eq_some_iff.1 hv
  exact hn n (List.mem_of_getElem? hn') a (List.mem_of_getElem? ha)

theorem wf_rel {T S : Type} {rel : T → S → Prop} {a : Raw T} {b : Raw S} (h : RawRel rel a b) (hw : WF a) : WF b := by
  unfold WF at hw ⊢
  rw [← h.2, ← forall₂_length h.1]
  exact hw

theorem relu_node {T : Type} [Zero T] [One T] [Add T] [Mul T] [Neg T] [Sub T] [LT T] [DecidableLT T] [LE T] [DecidableLE T] [RealFn T]
    {h : Heap T} (hg : h.Good) {i p : Nat} {m n : Node T} {d : Deriv} (hm : h[i]? = some m) (hd : m.gradFn = some d) (hk : d.kind = .relu)
    (hp : p ∈ d.inputs) (hn : h[p]? = some n) (hw : WF n.val) : m.val.array = n.val.array.map fun a => if a < 0 then 0 else a := by
  obtain ⟨vs, e1, e2⟩ := (hg i m hm).explained d hd
  obtain ⟨is, k⟩ := d
  subst hk
  match is, vs, Heap.vals_eq_ok.1 e1 with
  | [], _, .nil => cases hp
  | [q], [u], .cons ⟨n', k1, k2⟩ .nil =>
    obtain rfl : p = q := by simpa using hp
    cases hn.symm.trans k1
    subst k2
    rw [(unary_length hw e2).2]
    rfl
  | _ :: _ :: _, _ :: _ :: _, _ => cases e2

end RL
