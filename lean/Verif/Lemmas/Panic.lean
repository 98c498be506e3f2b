import Verif.Model.Panic
import Verif.Lemmas.Accum
import Verif.Lemmas.Ops3

/-!
# What is left behind by a panic: lemmas
-/

namespace RL

open Spec

variable {T : Type}

/-- The result without the heap of a failed computation. -/
def forget {σ : Type} (x : σ × R Unit) : R σ := match x with
  | (s, .ok _) => .ok s
  | (_, .error e) => .error e

theorem forget_orKeep {σ : Type} (s : σ) (x : R σ) : forget (orKeep s x) = x := by cases x <;> rfl

theorem forget_foldS {σ α : Type} (f : σ → α → σ × R Unit) (l : List α) (s : σ) :
    forget (foldS f l s) = l.foldlM (fun s a => forget (f s a)) s := by
  induction l generalizing s with
  | nil => rfl
  | cons a l ih =>
    rw [List.foldlM_cons, foldS]
    rcases f s a with ⟨s', e | u⟩
    · rfl
    · exact ih s'

section

variable [Zero T] [One T] [Add T] [Mul T] [Sub T] [Neg T] [LT T] [DecidableLT T] [LE T] [DecidableLE T] [RealFn T]

theorem forget_computeJvpS : ∀ (fuel : Nat) (h : Heap T) (d : Deriv) (gs : List (Raw T)),
    forget (computeJvpS fuel h d gs) = computeJvp fuel h d gs := by
  intro fuel
  induction fuel with
  | zero => intro h d gs; rfl
  | succ fuel ih =>
    intro h d gs
    rw [computeJvpS, computeJvp]
    cases e1 : (d.inputs.mapM (fun i => do return (← h.node i).val) : R (List (Raw T))) with
    | error e => rfl
    | ok inputs =>
      simp only [R.bind_ok]
      cases e2 : applyJvp d.kind inputs gs with
      | error e => rfl
      | ok sg =>
        simp only [R.bind_ok]
        rw [forget_foldS]
        congr 1
        funext h p
        obtain ⟨grad, input⟩ := p
        cases h.node input with
        | error e => rfl
        | ok n =>
          simp only [R.bind_ok]
          cases assertR (grad.array.length == n.val.array.length) with
          | error e => rfl
          | ok u =>
            simp only [R.bind_ok]
            cases Raw.new grad.array n.val.shape with
            | error e => rfl
            | ok s =>
              simp only [R.bind_ok]
              cases updateGrad (h.leaf s).1 input (h.leaf s).2 with
              | error e => rfl
              | ok h' =>
                simp only [R.bind_ok]
                cases hg : n.gradFn with
                | none => rfl
                | some d' => exact ih h' d' [grad]

theorem forget_backwardS (h : Heap T) (t : Nat) : forget (backwardS h t) = backward h t := by
  rw [backwardS, backward]
  cases h.node t with
  | error e => rfl
  | ok n =>
    simp only [R.bind_ok]
    cases assertR (n.val.array.length == 1) with
    | error e => rfl
    | ok u =>
      simp only [R.bind_ok]
      cases unwrapO n.gradFn with
      | error e => rfl
      | ok d => exact forget_computeJvpS _ _ _ _

theorem forget_runS (h : Heap T) (op : Op T) : forget (op.runS h) = op.run h := by
  have key := forget_orKeep h (op.run h)
  cases op with
  | backward t => exact forget_backwardS h t
  | _ => exact key

theorem runS_other {h h' : Heap T} {op : Op T} {e : Fail} (ho : ∀ l, op ≠ .backward l) (hop : op.runS h = (h', .error e)) : h' = h := by
  have key : ∀ x : R (Heap T), orKeep h x = (h', .error e) → h' = h := by
    intro x hx
    cases x with
    | error f => exact (Prod.mk.inj hx).1.symm
    | ok k => cases (Prod.mk.inj hx).2
  have key := key (op.run h)
  cases op with
  | backward l => exact absurd rfl (ho l)
  | _ => exact key hop

/-- What a fold with kept state leaves behind, if every step adds a list. -/
theorem foldS_updates {α : Type} {P : Nat × Raw T → Prop} {h0 : Heap T} {f : Heap T → α → Heap T × R Unit} {l : List α}
    (hf : ∀ a ∈ l, ∀ h, Frame h0 h → ∃ us, applyUpdates h us = .ok (f h a).1 ∧ ∀ u ∈ us, P u) :
    ∀ h, Frame h0 h → ∃ us, applyUpdates h us = .ok (foldS f l h).1 ∧ ∀ u ∈ us, P u := by
  induction l with
  | nil => intro h _; exact ⟨[], rfl, by simp⟩
  | cons a l ih =>
    intro h hh
    obtain ⟨us, e1, p1⟩ := hf a (by simp) h hh
    rw [foldS]
    rcases hfa : f h a with ⟨h', e | u⟩
    · rw [hfa] at e1
      exact ⟨us, e1, p1⟩
    · rw [hfa] at e1
      obtain ⟨vs, e2, p2⟩ := ih (fun b hb => hf b (by simp [hb])) h' (hh.trans (applyUpdates_frame e1))
      refine ⟨us ++ vs, ?_, fun u hu => ?_⟩
      · rw [applyUpdates_append, e1]
        exact e2
      · rcases List.mem_append.1 hu with hu | hu
        · exact p1 u hu
        · exact p2 u hu

/-- An update that fits an ancestor of one of the tensors `is`. -/
def UpdateOf (h0 : Heap T) (is : List Nat) (u : Nat × Raw T) : Prop :=
  (∃ i ∈ is, u.1 = i ∨ Ancestor h0 u.1 i) ∧ (dataOf h0 u.1).map (·.shape) = some u.2.shape ∧ WF u.2

theorem computeJvpS_updates {h0 : Heap T} (hgood : h0.Good) : ∀ (fuel : Nat) (h : Heap T) (d : Deriv) (gs : List (Raw T)), Frame h0 h →
    (∀ i ∈ d.inputs, i < h0.length) →
    ∃ us, applyUpdates h us = .ok (computeJvpS fuel h d gs).1 ∧ ∀ u ∈ us, UpdateOf h0 d.inputs u := by
  intro fuel
  induction fuel with
  | zero => intro h d gs _ _; exact ⟨[], rfl, by simp⟩
  | succ fuel ih =>
    intro h d gs hf hd
    rw [computeJvpS]
    cases e1 : (do
      let inputs ← d.inputs.mapM (fun i => do return (← h.node i).val)
      applyJvp d.kind inputs gs : R (List (Raw T))) with
    | error e => exact ⟨[], rfl, by simp⟩
    | ok sg =>
      refine foldS_updates (h0 := h0) (fun p hp h hf => ?_) h hf
      obtain ⟨grad, input⟩ := p
      have hid : input ∈ d.inputs := (List.of_mem_zip hp).2
      have hin : input < h0.length := hd _ hid
      have hn0 : h0[input]? = some h0[input] := List.getElem?_eq_getElem hin
      obtain ⟨gr, hn⟩ := hf.get hn0
      have hnode : h.node input = .ok { h0[input] with grad := gr } := Heap.node_eq_ok.2 hn
      simp only [hnode, R.bind_ok]
      cases assertR (grad.array.length == h0[input].val.array.length) with
      | error e => exact ⟨[], rfl, by simp⟩
      | ok u =>
        simp only [R.bind_ok]
        cases es : Raw.new grad.array h0[input].val.shape with
        | error e => exact ⟨[], rfl, by simp⟩
        | ok s =>
          simp only [R.bind_ok]
          obtain ⟨hw, hs⟩ := Raw.new_ok_iff.1 es
          have hU : UpdateOf h0 d.inputs (input, s) :=
            ⟨⟨input, hid, .inl rfl⟩, by subst hs; simp [dataOf, hn0], by subst hs; exact hw⟩
          cases eu : updateGrad (h.leaf s).1 input (h.leaf s).2 with
          | error e => exact ⟨[], rfl, by simp⟩
          | ok h' =>
            simp only [R.bind_ok]
            have ea : applyUpdate h (input, s) = .ok h' := eu
            cases hg : h0[input].gradFn with
            | none =>
              refine ⟨[(input, s)], ?_, by simpa using hU⟩
              rw [applyUpdates_cons, ea]
              rfl
            | some d' =>
              obtain ⟨us, e2, p2⟩ := ih h' d' [grad] (hf.trans (applyUpdate_frame ea)) fun i hi => ((hgood input _ hn0).older d' hg i hi).trans hin
              refine ⟨(input, s) :: us, ?_, fun u hu => ?_⟩
              · rw [applyUpdates_cons, ea]
                exact e2
              · rcases List.mem_cons.1 hu with rfl | hu
                · exact hU
                · obtain ⟨⟨j, hj, hu1⟩, hu2⟩ := p2 u hu
                  have hji : IsInput h0 j input := ⟨_, d', hn0, hg, hj⟩
                  refine ⟨⟨input, hid, .inr ?_⟩, hu2⟩
                  rcases hu1 with rfl | hu1
                  · exact .single hji
                  · exact hu1.tail hji

theorem backwardS_updates {h : Heap T} (hgood : h.Good) (l : Nat) :
    ∃ us, applyUpdates h us = .ok (backwardS h l).1 ∧
      ∀ u ∈ us, Ancestor h u.1 l ∧ (dataOf h u.1).map (·.shape) = some u.2.shape ∧ WF u.2 := by
  rw [backwardS]
  cases e1 : (do
    let n ← h.node l
    assertR (n.val.array.length == 1)
    unwrapO n.gradFn : R Deriv) with
  | error e => exact ⟨[], rfl, by simp⟩
  | ok d =>
    simp only [R.bind_eq_ok, Heap.node_eq_ok, unwrapO_eq_ok] at e1
    obtain ⟨n, hn, _, _, hd⟩ := e1
    obtain ⟨us, h1, h2⟩ := computeJvpS_updates hgood (h.length + 1) h d [Raw.scalar 1] (Frame.refl h)
      fun i hi => ((hgood l _ hn).older d hd i hi).trans (getElem?_lt hn)
    refine ⟨us, h1, fun u hu => ?_⟩
    obtain ⟨⟨i, hi, hu1⟩, hu2⟩ := h2 u hu
    have hil : IsInput h i l := ⟨n, d, hn, hd, hi⟩
    refine ⟨?_, hu2⟩
    rcases hu1 with rfl | hu1
    · exact .single hil
    · exact hu1.tail hil

/-- Updates are operations: `new` and `update_grad`. -/
theorem applyUpdates_ops : ∀ (us : List (Nat × Raw T)) (h h' : Heap T), (∀ u ∈ us, WF u.2) → applyUpdates h us = .ok h' →
    ∃ ops : List (Op T), runOps h ops = .ok h' := by
  intro us
  induction us with
  | nil => intro h h' _ e; cases e; exact ⟨[], rfl⟩
  | cons u us ih =>
    intro h h' hw e
    rw [applyUpdates_cons, R.bind_eq_ok] at e
    obtain ⟨h1, e1, e2⟩ := e
    obtain ⟨ops, e3⟩ := ih h1 h' (fun v hv => hw v (by simp [hv])) e2
    refine ⟨.new u.2.array u.2.shape :: .updateGrad u.1 h.length :: ops, ?_⟩
    have hn : Raw.new u.2.array u.2.shape = .ok u.2 := Raw.new_ok_iff.2 ⟨hw u (by simp), rfl⟩
    have hl : (h.leaf u.2).1.node h.length = .ok (leafNode u.2) := Heap.node_eq_ok.2 (by simp [Heap.leaf, Heap.alloc, leafNode])
    rw [runOps_cons]
    simp only [Op.run, hn, R.bind_ok, pure_bind]
    rw [runOps_cons]
    simp only [Op.run, hl, R.bind_ok]
    have e1' : updateGrad (h.leaf u.2).1 u.1 h.length = .ok h1 := e1
    rw [e1', R.bind_ok, e3]

theorem runS_ops {h : Heap T} (hgood : h.Good) (op : Op T) : ∃ ops : List (Op T), runOps h ops = .ok (op.runS h).1 := by
  have key : ∀ x : R (Heap T), op.run h = x → ∃ ops : List (Op T), runOps h ops = .ok (orKeep h x).1 := by
    intro x hx
    cases x with
    | error e => exact ⟨[], rfl⟩
    | ok h' => exact ⟨[op], by rw [runOps_cons, hx]; rfl⟩
  cases op with
  | backward t =>
    obtain ⟨us, h1, h2⟩ := backwardS_updates hgood t
    exact applyUpdates_ops us h _ (fun u hu => (h2 u hu).2.2) h1
  | _ => exact key _ rfl

theorem runCaught_reachable {h : Heap T} (hr : Reachable h) (ops : List (Op T)) : Reachable (runCaught h ops) := by
  induction ops generalizing h with
  | nil => exact hr
  | cons op ops ih =>
    refine ih ?_
    obtain ⟨ops0, e0⟩ := hr
    obtain ⟨ops1, e1⟩ := runS_ops (Reachable.good ⟨ops0, e0⟩) op
    exact ⟨ops0 ++ ops1, by rw [runOps_append, e0]; exact e1⟩

end

end RL
