import Verif.Lemmas.Memory
import Verif.Lemmas.Updates
import Mathlib.Order.WellFounded
import Mathlib.Data.Fintype.Order
import Mathlib.Order.RelClasses
import Mathlib.Data.Finite.Defs
import Mathlib.Data.Set.Finite.Basic

/-!
# Cycles of references
-/

namespace RL

open Spec Relation

variable {T : Type}

theorem Spec.Acyclic.append {h : Heap T} (ha : Acyclic h) (hr : RefsOk h) {n : Node T} (hn : ∀ r ∈ n.refs, r < h.length) : Acyclic (h ++ [n]) := by
  have key : ∀ a b, TransGen (Refers (h ++ [n])) a b → b < h.length ∧ (a < h.length → TransGen (Refers h) a b) := by
    intro a b hab
    induction hab with
    | single h1 =>
      rcases refers_append.1 h1 with h2 | ⟨h2, h3⟩
      · exact ⟨hr _ _ h2, fun _ => .single h2⟩
      · exact ⟨hn _ h3, fun h4 => by omega⟩
    | tail _ h1 ih =>
      rcases refers_append.1 h1 with h2 | ⟨h2, h3⟩
      · exact ⟨hr _ _ h2, fun h4 => (ih.2 h4).tail h2⟩
      · omega
  intro i hi
  exact ha i ((key i i hi).2 (key i i hi).1)

theorem refers_set {h : Heap T} {t : Nat} {n : Node T} (hn : h[t]? = some n) {g : Option Nat} {a b : Nat}
    (hr : Refers (h.set t { n with grad := g }) a b) : Refers h a b ∨ (a = t ∧ g = some b) := by
  have h1 := refCount_set hn g a b
  rw [refers_iff] at hr ⊢
  by_cases e : refCount h a b = 0
  · right
    have h2 : a = t ∧ 0 < g.toList.count b := by split at h1 <;> omega
    exact ⟨h2.1, by simpa using List.count_pos_iff.1 h2.2⟩
  · exact .inl e

theorem Spec.Acyclic.set {h : Heap T} (ha : Acyclic h) {t : Nat} {n : Node T} (hn : h[t]? = some n) {g : Option Nat}
    (hg : ∀ x, g = some x → ¬ ReflTransGen (Refers h) x t) : Acyclic (h.set t { n with grad := g }) := by
  have h1 : ∀ x, ReflTransGen (Refers (h.set t { n with grad := g })) x t → ReflTransGen (Refers h) x t := by
    intro x hx
    induction hx using ReflTransGen.head_induction_on with
    | refl => exact .refl
    | head h2 _ ih =>
      rcases refers_set hn h2 with h3 | ⟨rfl, _⟩
      · exact ih.head h3
      · exact .refl
  have h2 : ∀ a b, TransGen (Refers (h.set t { n with grad := g })) a b → TransGen (Refers h) a b ∨
      ∃ x, g = some x ∧ ReflTransGen (Refers (h.set t { n with grad := g })) a t ∧ ReflTransGen (Refers (h.set t { n with grad := g })) x b := by
    intro a b hab
    induction hab with
    | single h3 =>
      rcases refers_set hn h3 with h4 | ⟨rfl, h4⟩
      · exact .inl (.single h4)
      · exact .inr ⟨_, h4, .refl, .refl⟩
    | tail h5 h3 ih =>
      rcases ih with h6 | ⟨x, h6, h7, h8⟩
      · rcases refers_set hn h3 with h4 | ⟨rfl, h4⟩
        · exact .inl (h6.tail h4)
        · exact .inr ⟨_, h4, h5.to_reflTransGen, .refl⟩
      · exact .inr ⟨x, h6, h7, h8.tail h3⟩
  intro i hi
  rcases h2 i i hi with h3 | ⟨x, h3, h4, h5⟩
  · exact ha i h3
  · exact hg x h3 (h1 x (h5.trans h4))

section
variable [Zero T] [One T] [Add T] [Mul T] [Sub T] [Neg T] [LT T] [DecidableLT T] [LE T] [DecidableLE T] [RealFn T]

theorem updateGrad_acyclic {h h' : Heap T} {t g : Nat} (hr : RefsOk h) (ha : Acyclic h) (hgl : g < h.length)
    (hg : ¬ ReflTransGen (Refers h) g t) (e : updateGrad h t g = .ok h') : Acyclic h' := by
  simp only [updateGrad, R.bind_eq_ok, Heap.node_eq_ok] at e
  obtain ⟨n, hn, e⟩ := e
  cases ho : n.grad with
  | none =>
    rw [ho] at e
    simp only [pure_bind, R.pure_eq_ok] at e
    subst e
    exact ha.set hn fun x hx => by cases hx; exact hg
  | some o =>
    rw [ho] at e
    simp only [R.bind_eq_ok, R.pure_eq_ok] at e
    obtain ⟨⟨h1, id⟩, e1, rfl⟩ := e
    obtain ⟨ln, rn, v, h2, h3, h4, rfl, rfl⟩ := addT_inv e1
    have ht := getElem?_lt hn
    have hto : Refers h t o := .inl ⟨n, hn, ho⟩
    have ha1 := ha.append hr (n := ⟨v, none, some ⟨[o, g], .add⟩⟩) (by
      intro r hr'
      simp [Node.refs] at hr'
      rcases hr' with rfl | rfl
      · exact getElem?_lt h2
      · exact hgl)
    refine ha1.set (by rw [List.getElem?_append_left ht, hn]) fun x hx hxt => ?_
    cases hx
    -- paths from old tensors are old paths
    have old : ∀ a, a < h.length → ReflTransGen (Refers (h ++ [(⟨v, none, some ⟨[o, g], .add⟩⟩ : Node T)])) a t →
        ReflTransGen (Refers h) a t := by
      intro a hal hat
      induction hat using ReflTransGen.head_induction_on with
      | refl => exact .refl
      | head h5 _ ih =>
        rcases refers_append.1 h5 with h6 | ⟨h6, _⟩
        · exact (ih (hr _ _ h6)).head h6
        · omega
    rcases ReflTransGen.cases_head hxt with h5 | ⟨y, h5, h6⟩
    · omega
    · rcases refers_append.1 h5 with h7 | ⟨_, h7⟩
      · exact absurd h7.lt (by omega)
      · simp [Node.refs] at h7
        rcases h7 with rfl | rfl
        · exact ha t ((TransGen.single hto).trans_left (old y (getElem?_lt h2) h6))
        · exact hg (old y hgl h6)

theorem applyUpdate_acyclic {h h' : Heap T} {u : Nat × Raw T} (hg : h.Good) (ha : Acyclic h) (hu : u.1 < h.length)
    (e : applyUpdate h u = .ok h') : Acyclic h' := by
  have hr := hg.refsOk
  have ha1 := ha.append hr (n := leafNode u.2) (by simp [Node.refs, leafNode])
  have hg1 : Heap.Good (h ++ [leafNode u.2]) := (Allocs.leaf h u.2).2 hg
  refine updateGrad_acyclic (h := h ++ [leafNode u.2]) hg1.refsOk ha1 (g := h.length) (by simp) ?_ e
  intro h1
  rcases ReflTransGen.cases_head h1 with h2 | ⟨y, h2, _⟩
  · omega
  · rcases refers_append.1 h2 with h3 | ⟨_, h3⟩
    · exact absurd h3.lt (by omega)
    · simp [Node.refs, leafNode] at h3

theorem applyUpdates_acyclic : ∀ {us : List (Nat × Raw T)} {h h' : Heap T}, h.Good → Acyclic h → (∀ u ∈ us, u.1 < h.length) →
    applyUpdates h us = .ok h' → Acyclic h' := by
  intro us
  induction us with
  | nil => intro h h' _ ha _ e; cases e; exact ha
  | cons u us ih =>
    intro h h' hg ha hu e
    rw [applyUpdates_cons, R.bind_eq_ok] at e
    obtain ⟨h1, e1, e2⟩ := e
    have hl := (applyUpdates_frame (us := [u]) (h := h) (h' := h1) (by rw [applyUpdates_cons, e1]; rfl)).len
    exact ih (applyUpdate_good e1 hg) (applyUpdate_acyclic hg ha (hu u (by simp)) e1)
      (fun v hv => (hu v (by simp [hv])).trans_le hl) e2

/-- only `update_grad` called by the user can make a cycle -/
theorem Op.run_acyclic {h h' : Heap T} (hg : h.Good) (ha : Acyclic h) {o : Op T} (ho : ∀ i ∈ o.ids, i < h.length)
    (hu : ∀ t g, o = .updateGrad t g → ¬ ReflTransGen (Refers h) g t) (e : o.run h = .ok h') : Acyclic h' := by
  cases hop : o.isGrad with
  | false =>
    obtain ⟨ns, rfl, h1⟩ := Op.fresh_refs hop e
    rcases h1 with ⟨n, rfl, hr⟩ | ⟨n1, n2, rfl, hr1, hr2⟩
    · refine ha.append hg.refsOk fun r hr' => ?_
      rcases hr r hr' with h2 | ⟨t, _, h3⟩
      · exact ho r h2
      · exact hg.refsOk _ _ h3
    · have h1 : ∀ r ∈ n1.refs, r < h.length := fun r hr => ho r (hr1 r hr)
      have ha1 := ha.append hg.refsOk h1
      have hr1 : RefsOk (h ++ [n1]) := by
        intro a b hab
        rcases refers_append.1 hab with h2 | ⟨_, h2⟩
        · have := hg.refsOk _ _ h2; simp; omega
        · have := h1 b h2; simp; omega
      have := ha1.append hr1 (n := n2) fun r hr => by
        rcases hr2 r hr with h2 | rfl
        · have := ho r h2; simp; omega
        · simp
      simpa using this
  | true =>
    cases o <;> try (cases hop; done)
    case updateGrad t g =>
      simp only [Op.run, R.bind_eq_ok, Heap.node_eq_ok] at e
      obtain ⟨gn, hgn, e⟩ := e
      exact updateGrad_acyclic hg.refsOk ha (getElem?_lt hgn) (hu t g rfl) e
    case zeroGrad t =>
      obtain ⟨n, hn, rfl⟩ := zeroGrad_inv e
      exact ha.set hn (by simp)
    case backward l =>
      obtain ⟨n, d, us, _, _, _, e1, e⟩ := backward_inv hg e
      refine applyUpdates_acyclic hg ha (fun u hu => ?_) e
      obtain ⟨x, hx, _⟩ := jvpUpdates_shape e1 u hu
      exact getElem?_lt hx

theorem runMem_acyclic : ∀ {os : List (MemOp T)} {m m' : Mem T}, m.Inv → m.heap.Good → Acyclic m.heap → Tame os m → runMem m os = .ok m' →
    Acyclic m'.heap := by
  intro os
  induction os with
  | nil => intro m m' _ _ ha _ e; cases e; exact ha
  | cons o os ih =>
    intro m m' hm hg ha ht e
    simp only [runMem, List.foldlM_cons, R.bind_eq_ok] at e
    obtain ⟨m1, e1, e2⟩ := e
    obtain ⟨h1, h2⟩ := MemOp.run_inv hm e1
    cases ht with
    | cons ht1 ht2 =>
      cases o with
      | op x =>
        simp only at h2
        have hids : ∀ i ∈ x.ids, i < m.heap.length := fun i hi => hm.live_lt (hm.held_live (Mem.op_ids e1 i hi))
        refine ih h1 (Op.run_frame hg h2).2 (Op.run_acyclic hg ha hids (fun t g hx => ht1 t g (by rw [hx])) h2) (ht2 m1 e1) e2
      | clone t | grad t | drop t =>
        simp only at h2
        exact ih h1 (h2 ▸ hg) (h2 ▸ ha) (ht2 m1 e1) e2

end

/-- a tensor that is in memory although the program cannot get at it hangs on a cycle -/
theorem Mem.Inv.leak {m : Mem T} (hm : m.Inv) {i : Nat} (hi : Live m i) (hu : ¬ InUse m i) :
    ∃ j, Live m j ∧ TransGen (Refers m.heap) j j ∧ ReflTransGen (Refers m.heap) j i := by
  by_contra hno
  have hno : ∀ j, Live m j → ReflTransGen (Refers m.heap) j i → ¬ TransGen (Refers m.heap) j j :=
    fun j h1 h2 h3 => hno ⟨j, h1, h3, h2⟩
  let S : Set Nat := {j | Live m j ∧ ReflTransGen (Refers m.heap) j i}
  have hfin : Finite S := Set.Finite.to_subtype ((Set.finite_lt_nat m.heap.length).subset fun j hj => hm.live_lt hj.1)
  let r : S → S → Prop := fun a b => TransGen (Refers m.heap) a.1 b.1
  haveI : IsTrans S r := ⟨fun _ _ _ h1 h2 => TransGen.trans h1 h2⟩
  haveI : Std.Irrefl r := ⟨fun a h => hno a.1 a.2.1 a.2.2 h⟩
  have hwf : WellFounded r := Finite.wellFounded_of_trans_of_irrefl r
  obtain ⟨⟨j, hj1, hj2⟩, _, hmin⟩ := hwf.has_min Set.univ ⟨⟨i, hi, .refl⟩, trivial⟩
  rcases hm.live_owner hj1 with h1 | ⟨k, h1, h2⟩
  · exact hu ⟨j, h1, hj2⟩
  · exact hmin ⟨k, h1, hj2.head h2⟩ trivial (.single h2)

end RL
