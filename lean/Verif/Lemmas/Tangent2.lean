import Verif.Lemmas.Replay
import Verif.Lemmas.GradLock2

/-! Helper lemmas: the contributions of `backward` are the derivatives -/

namespace RL

open Spec

/-- what a list of updates adds to one coordinate of one tensor -/
noncomputable def ctr (x : Nat) (e : List Nat) (us : List (Nat × Raw ℝ)) : ℝ := ((contribsTo x us).map fun c => cell c e).sum

theorem ctr_append (x : Nat) (e : List Nat) (us vs : List (Nat × Raw ℝ)) : ctr x e (us ++ vs) = ctr x e us + ctr x e vs := by
  simp [ctr, contribsTo]

theorem ctr_cons (x : Nat) (e : List Nat) (u : Nat × Raw ℝ) (us : List (Nat × Raw ℝ)) :
    ctr x e (u :: us) = (if u.1 = x then cell u.2 e else 0) + ctr x e us := by
  by_cases h : u.1 = x <;> simp [ctr, contribsTo, h]

theorem ctr_other {x : Nat} {e : List Nat} {us : List (Nat × Raw ℝ)} (h : ∀ u ∈ us, u.1 ≠ x) : ctr x e us = 0 := by
  have : us.filter (fun u => u.1 == x) = [] := by
    rw [List.filter_eq_nil_iff]
    intro u hu
    simpa using h u hu
  simp [ctr, contribsTo, this]

/-- the part of `jvpUpdates` that belongs to one input -/
noncomputable def childUpdates (fuel : Nat) (h : Heap ℝ) (grad : Raw ℝ) (input : Nat) : R (List (Nat × Raw ℝ)) := do
  let n ← h.node input
  assertR (grad.array.length == n.val.array.length)
  let shapedGrad ← Raw.new grad.array n.val.shape
  let rest ← match n.gradFn with
    | some d' => jvpUpdates fuel h d' [grad]
    | none => pure []
  return (input, shapedGrad) :: rest

theorem jvpUpdates_inv {fuel : Nat} {h : Heap ℝ} {d : Deriv} {gs : List (Raw ℝ)} {us : List (Nat × Raw ℝ)}
    (e : jvpUpdates (fuel + 1) h d gs = .ok us) : ∃ vs sg uss, h.vals d.inputs = .ok vs ∧ applyJvp d.kind vs gs = .ok sg ∧
      (sg.zip d.inputs).mapM (fun p => childUpdates fuel h p.1 p.2) = .ok uss ∧ us = uss.flatten := by
  unfold jvpUpdates at e
  rw [R.bind_eq_ok] at e
  obtain ⟨vs, h1, e⟩ := e
  rw [R.bind_eq_ok] at e
  obtain ⟨sg, h2, e⟩ := e
  rw [R.bind_eq_ok] at e
  obtain ⟨uss, e1, e2⟩ := e
  rw [R.pure_eq_ok] at e2
  exact ⟨vs, sg, uss, h1, h2, e1, e2.symm⟩

theorem childUpdates_inv {fuel : Nat} {h : Heap ℝ} {grad : Raw ℝ} {input : Nat} {us : List (Nat × Raw ℝ)}
    (e : childUpdates fuel h grad input = .ok us) : ∃ n rest, h[input]? = some n ∧ us = (input, ⟨grad.array, n.val.shape⟩) :: rest ∧
      ((n.gradFn = none ∧ rest = []) ∨ ∃ d, n.gradFn = some d ∧ jvpUpdates fuel h d [grad] = .ok rest) := by
  simp only [childUpdates, R.bind_eq_ok, Heap.node_eq_ok] at e
  obtain ⟨m, hm, _, _, sgr, hS, e3⟩ := e
  obtain ⟨hw, rfl⟩ := Raw.new_ok_iff.1 hS
  cases hgf : m.gradFn with
  | none =>
    rw [hgf] at e3
    simp only [R.bind_eq_ok, R.pure_eq_ok] at e3
    obtain ⟨_, rfl, rfl⟩ := e3
    exact ⟨m, [], hm, rfl, Or.inl ⟨hgf, rfl⟩⟩
  | some d' =>
    rw [hgf] at e3
    simp only [R.bind_eq_ok, R.pure_eq_ok] at e3
    obtain ⟨rest, hr, rfl⟩ := e3
    exact ⟨m, rest, hm, rfl, Or.inr ⟨d', hgf, hr⟩⟩

theorem jvpUpdates_older {h : Heap ℝ} (hg : h.Good) : ∀ {fuel i : Nat} {n : Node ℝ} {d : Deriv} {gs : List (Raw ℝ)} {us : List (Nat × Raw ℝ)},
    h[i]? = some n → n.gradFn = some d → jvpUpdates fuel h d gs = .ok us → ∀ u ∈ us, u.1 < i := by
  intro fuel
  induction fuel with
  | zero => intro i n d gs us _ _ e; cases e
  | succ fuel ih =>
    intro i n d gs us hn hd e u hu
    obtain ⟨vs, sg, uss, _, _, e1, rfl⟩ := jvpUpdates_inv e
    obtain ⟨us, hus, hu⟩ := List.mem_flatten.1 hu
    obtain ⟨⟨g, a⟩, hp, e2⟩ := forall₂_mem_right (mapM_ok_iff.1 e1) hus
    have ha := (hg i n hn).older d hd a (List.of_mem_zip hp).2
    obtain ⟨m, rest, hm, rfl, hr⟩ := childUpdates_inv e2
    rcases List.mem_cons.1 hu with rfl | hu
    · exact ha
    · rcases hr with ⟨_, rfl⟩ | ⟨d', hd', hr⟩
      · simp at hu
      · exact (ih hm hd' hr u hu).trans ha

theorem jvpUpdates_one {fuel : Nat} {h : Heap ℝ} {a : Nat} {k : JvpKind} {t s : Raw ℝ} {gs : List (Raw ℝ)} {us : List (Nat × Raw ℝ)}
    (ht : dataOf h a = some t) (hs : applyJvp k [t] gs = .ok [s]) (e : jvpUpdates (fuel + 1) h ⟨[a], k⟩ gs = .ok us) :
    childUpdates fuel h s a = .ok us := by
  obtain ⟨vs, sg, uss, h1, h2, e1, rfl⟩ := jvpUpdates_inv e
  obtain ⟨n, hn, rfl⟩ := vals_one h1
  rw [dataOf_node hn] at ht
  cases ht
  rw [hs] at h2
  cases h2
  simp only [List.zip_cons_cons, List.zip_nil_left] at e1
  cases mapM_ok_iff.1 e1 with
  | cons h1 h2 =>
    cases h2
    simpa using h1

theorem jvpUpdates_two {fuel : Nat} {h : Heap ℝ} {a b : Nat} {k : JvpKind} {t u s r : Raw ℝ} {gs : List (Raw ℝ)} {us : List (Nat × Raw ℝ)}
    (ht : dataOf h a = some t) (hu : dataOf h b = some u) (hs : applyJvp k [t, u] gs = .ok [s, r])
    (e : jvpUpdates (fuel + 1) h ⟨[a, b], k⟩ gs = .ok us) :
    ∃ u1 u2, childUpdates fuel h s a = .ok u1 ∧ childUpdates fuel h r b = .ok u2 ∧ us = u1 ++ u2 := by
  obtain ⟨vs, sg, uss, h1, h2, e1, rfl⟩ := jvpUpdates_inv e
  obtain ⟨n, m, hn, hm, rfl⟩ := vals_two h1
  rw [dataOf_node hn] at ht
  cases ht
  rw [dataOf_node hm] at hu
  cases hu
  rw [hs] at h2
  cases h2
  simp only [List.zip_cons_cons, List.zip_nil_left] at e1
  cases mapM_ok_iff.1 e1 with
  | cons h1 h2 =>
    cases h2 with
    | cons h2 h3 =>
      cases h3
      exact ⟨_, _, h1, h2, by simp⟩

theorem pair_delta {s e : List Nat} (he : InRange s e) (f : List Nat → ℝ) : pair s f (fun idx => if e = idx then 1 else 0) = f e := by
  unfold pair
  rw [← sum_ite_eq_of_nodup (allIndices_nodup s) (mem_allIndices.2 he) f]
  congr 1
  apply List.map_congr_left
  intro idx _
  by_cases h : e = idx <;> simp [h]

theorem pair_zero (s : List Nat) (f : List Nat → ℝ) : pair s f (fun _ => 0) = 0 := by
  simp [pair]

theorem pair_mat (m n : Nat) (f g : List Nat → ℝ) :
    pair [m, n] f g = ∑ i ∈ Finset.range m, ∑ c ∈ Finset.range n, f [i, c] * g [i, c] := by
  unfold pair
  exact sum_allIndices_mat m n fun idx => f idx * g idx

theorem adj_uder {k : JvpKind} (hk : isUnary k) {t G : Raw ℝ} (ht : WF t) (hp : Pos t.shape) {g : Nat → ℝ}
    (hG : GradOk G 1 t.shape.prod (fun _ k => g k)) (hsh : G.shape = [1, t.shape.prod] ∨ k ≠ .abs ∧ t.shape.prod = 1) :
    ∃ s, applyJvp k [t] [G] = .ok [s] ∧ s.shape = [1, t.shape.prod] ∧ WF s ∧
      ∀ τ, pair t.shape (gv s t.shape) τ =
        pair t.shape (fun idx => g (rowMajor t.shape idx)) (fun idx => uder k (cell t idx) * τ idx) := by
  rw [← ht] at hG
  cases k <;> simp only [isUnary] at hk
  · exact adj_unary ht hp hG (fun _ => -1)
  · exact adj_unary ht hp hG reluDeriv
  · have hs : G.shape = [1, t.shape.prod] := by simpa using hsh
    obtain ⟨s, h1, h2⟩ := adj_unary ht hp hG absDeriv
    refine ⟨s, ?_, h2⟩
    simp only [applyJvp, absJvp]
    simpa [idxR, hs, assertR] using h1
  · refine adj_tanh ht hp hG ?_
    rw [ht]
    exact hsh.imp id And.right

theorem Spec.StepRules.unary {h : Heap ℝ} {l x : Nat} {e : List Nat} {τ : Nat → List Nat → ℝ} (hτ : StepRules h l x e τ) {i a : Nat}
    {k : JvpKind} {t : Raw ℝ} (hk : isUnary k) (hi : Feeds h i l) (hx : i ≠ x) (hh : historyOf h i = some (some ⟨[a], k⟩))
    (ht : dataOf h a = some t) {idx : List Nat} (hidx : InRange (shapeOf h i) idx) : τ i idx = uder k (cell t idx) * τ a idx := by
  cases k <;> simp only [isUnary] at hk
  · rw [hτ.neg i a hi hx hh idx hidx]
    simp [uder]
  · rw [hτ.relu i a hi hx hh idx hidx, ht, coord_some]
    simp only [uder, reluDeriv]
    split <;> simp
  · rw [hτ.abs i a hi hx hh idx hidx, ht, coord_some]
    by_cases h0 : cell t idx < 0
    · simp [uder, absDeriv, h0, not_le.2 h0]
    · simp [uder, absDeriv, h0, not_lt.1 h0]
  · rw [hτ.tanh i a hi hx hh idx hidx, ht, coord_some]
    rfl

theorem dotJvp_scalar_one {a b : Raw ℝ} : applyJvp .dot [a, b] [Raw.scalar 1] = .ok [b, a] := by
  have key : ∀ x : Raw ℝ, jvpFromFullJacobians (Raw.scalar 1) x = .ok x := by
    intro x
    simp [jvpFromFullJacobians, Raw.isScalar, Raw.scalar, mulRaw, idxR, TL.leftScalarMul, TL.tensor, TL.shape]
  simp [applyJvp, dotJvp, idxR, key]

theorem jvp_tangent {h : Heap ℝ} {l x : Nat} {e : List Nat} {τ : Nat → List Nat → ℝ} {ε : Nat → ℝ} (hg : h.Good) (hl : RealLoss h l)
    (hτ : Sweeps h l x e τ ε) (he : InRange (shapeOf h x) e) : ∀ (fuel i : Nat) (d : Deriv) (G : Raw ℝ) (g : Nat → ℝ) (us : List (Nat × Raw ℝ)),
    Feeds h i l → i ≠ x → historyOf h i = some (some d) → jvpUpdates fuel h d [G] = .ok us →
    (i ≠ l ∧ G.shape = [1, (shapeOf h i).prod] ∧ WF G ∧ g = (fun k => G.array.getD k 0)) ∨ (i = l ∧ G = Raw.scalar 1 ∧ g = fun _ => 1) →
    ctr x e us = pair (shapeOf h i) (fun idx => g (rowMajor (shapeOf h i) idx)) (τ i) + ε i := by
  intro fuel
  induction fuel with
  | zero => intro i d G g us _ _ _ e'; cases e'
  | succ fuel ih =>
    have child : ∀ (a : Nat) (t s : Raw ℝ) (us : List (Nat × Raw ℝ)), Ancestor h a l → dataOf h a = some t →
        historyOf h a = some none ∨ s.shape = [1, t.shape.prod] → WF s →
        childUpdates fuel h s a = .ok us → ctr x e us = pair t.shape (gv s t.shape) (τ a) + ε a := by
      intro a t s us fa ht hs hw e'
      obtain ⟨n, rest, hn, rfl, hr⟩ := childUpdates_inv e'
      rw [dataOf_node hn] at ht
      cases ht
      rw [ctr_cons]
      have hsa := shapeOf_eq hn
      by_cases hax : a = x
      · subst hax
        have h0 : ctr a e rest = 0 := by
          apply ctr_other
          intro u hu
          rcases hr with ⟨_, rfl⟩ | ⟨d', hd', hr⟩
          · simp at hu
          · exact (jvpUpdates_older hg hn hd' hr u hu).ne
        rw [h0, if_pos rfl, hτ.stop, add_zero, add_zero]
        rw [pair_congr (g' := fun idx => if e = idx then 1 else 0) (f' := gv s n.val.shape)
          (fun idx hidx => by rw [hτ.self idx (hsa ▸ hidx)]), pair_delta (hsa ▸ he)]
        rfl
      · rw [if_neg hax, zero_add]
        rcases hr with ⟨hd', rfl⟩ | ⟨d', hd', hr⟩
        · have : pair n.val.shape (gv s n.val.shape) (τ a) = 0 := by
            rw [pair_congr (g' := fun _ => 0) (f' := gv s n.val.shape) (fun idx hidx => by
              rw [hτ.leaf a (Or.inr fa) hax (by simp [historyOf, hn, hd']) idx (hsa ▸ hidx)]), pair_zero]
          rw [this, hτ.none a (Or.inr fa) hax (by simp [historyOf, hn, hd'])]
          simp [ctr, contribsTo]
        · have hs : s.shape = [1, n.val.shape.prod] := hs.resolve_left (by simp [historyOf, hn, hd'])
          have hal : a ≠ l := (ancestor_lt hg fa).ne
          rw [ih a d' s (fun k => s.array.getD k 0) rest (Or.inr fa) hax (by simp [historyOf, hn, hd']) hr
            (Or.inl ⟨hal, by rw [hs, hsa], hw, rfl⟩), hsa]
          rfl
    intro i d G g us hi hx hh e' hG
    have hGok : GradOk G 1 (shapeOf h i).prod (fun _ k => g k) := by
      rcases hG with ⟨_, h1, h2, rfl⟩ | ⟨rfl, rfl, rfl⟩
      · exact gradOk_getD h1 h2
      · exact Or.inr ⟨rfl, rfl, rfl, fun _ => rfl⟩
    cases nodeForm hg hl hi with
    | leaf hh' => rw [hh] at hh'; cases hh'
    | @add a b t u v hh' ht hu hv hai hbi fa fb hc hsh _ =>
      rw [hh] at hh'
      cases hh'
      have hs := (shapeOf_data hv).trans hsh
      obtain ⟨wt, pt⟩ := hl.data a t (Or.inr fa) ht
      obtain ⟨wu, pu⟩ := hl.data b u (Or.inr fb) hu
      obtain ⟨s, r, h1, h2, h3, h4, h5, h6⟩ := adj_add wt wu pt pu hc (hs ▸ hGok)
      obtain ⟨u1, u2, e1, e2, rfl⟩ := jvpUpdates_two (k := .add) ht hu h1 e'
      rw [ctr_append, child a t s u1 fa ht (Or.inr h2) h3 e1, child b u r u2 fb hu (Or.inr h4) h5 e2, add_add_add_comm, h6, hs]
      rw [hτ.pass i _ hi hx hh (by simp)]
      simp only [List.map_cons, List.map_nil, List.sum_cons, List.sum_nil, add_zero]
      refine congrArg (· + _) (pair_congr fun idx hidx => ?_)
      rw [hτ.add i a b hi hx hh idx (hs ▸ hidx), shapeOf_data ht, shapeOf_data hu]
    | @unary a k t v hk hh' ht hv hai fa habs hsh _ =>
      rw [hh] at hh'
      cases hh'
      have hs := (shapeOf_data hv).trans hsh
      obtain ⟨wt, pt⟩ := hl.data a t (Or.inr fa) ht
      have hshape : G.shape = [1, t.shape.prod] ∨ k ≠ .abs ∧ t.shape.prod = 1 := by
        rcases hG with ⟨_, h1, _⟩ | ⟨h1, _⟩
        · exact Or.inl (hs ▸ h1)
        · have := hl.one
          rw [← h1, hs] at this
          exact Or.inr ⟨habs h1, this⟩
      obtain ⟨s, h1, h2, h3, h4⟩ := adj_uder hk wt pt (hs ▸ hGok) hshape
      have e1 := jvpUpdates_one ht h1 e'
      rw [child a t s us fa ht (Or.inr h2) h3 e1, h4, hs]
      rw [hτ.pass i _ hi hx hh (by rintro rfl; simp [isUnary] at hk)]
      simp only [List.map_cons, List.map_nil, List.sum_cons, List.sum_nil, add_zero]
      refine congrArg (· + _) (pair_congr fun idx hidx => ?_)
      rw [hτ.unary hk hi hx hh ht (hs ▸ hidx)]
    | @bmm a b m k n t u v hil hh' ht hu hv hai hbi fa fb hts hus hsh _ =>
      rw [hh] at hh'
      cases hh'
      have hs := (shapeOf_data hv).trans hsh
      obtain ⟨wt, pt⟩ := hl.data a t (Or.inr fa) ht
      obtain ⟨wu, pu⟩ := hl.data b u (Or.inr fb) hu
      rcases hG with ⟨_, g1, g2, rfl⟩ | ⟨hil', _⟩
      · obtain ⟨s, r, h1, h2, h3, h4, h5, h6⟩ := adj_bmm wt wu g2 hts hus (G := G) (by rw [g1, hs]; simp)
        obtain ⟨u1, u2, e1, e2, rfl⟩ := jvpUpdates_two (k := .bmm) ht hu h1 e'
        rw [ctr_append, child a t s u1 fa ht (Or.inr (by rw [h2, hts]; simp)) h3 e1, child b u r u2 fb hu (Or.inr (by rw [h4, hus]; simp)) h5 e2, hts, hus,
          add_add_add_comm, h6, hs, pair_mat, hτ.pass i _ hi hx hh (by simp)]
        simp only [List.map_cons, List.map_nil, List.sum_cons, List.sum_nil, add_zero]
        refine congrArg (· + _) ?_
        refine Finset.sum_congr rfl fun r hr => Finset.sum_congr rfl fun c hc => ?_
        rw [Finset.mem_range] at hr hc
        rw [hτ.bmm i a b hi hx hh m k n ((shapeOf_data ht).trans hts) ((shapeOf_data hu).trans hus) r hr c hc, ht, hu]
        simp only [coord_some]
        rfl
      · exact absurd hil' hil
    | @sum a t v hh' ht hv hai fa hsh _ =>
      rw [hh] at hh'
      cases hh'
      have hs := (shapeOf_data hv).trans hsh
      obtain ⟨wt, pt⟩ := hl.data a t (Or.inr fa) ht
      have hG1 : G.shape.prod = 1 := by
        rcases hG with ⟨_, h1, _⟩ | ⟨_, rfl, _⟩
        · rw [h1, hs]
          rfl
        · rfl
      have e1 := jvpUpdates_one (s := Raw.newWithFiller [1, t.shape.prod] 1) ht (by
        change (do
          assertR true
          assertR true
          return [Raw.newWithFiller [G.shape.prod, t.shape.prod] (1 : ℝ)] : R _) = _
        rw [hG1]
        rfl) e'
      rw [child a t _ us fa ht (Or.inr rfl) (by simp [WF, Raw.newWithFiller]) e1, hs]
      have h1 : ∀ f : List Nat → ℝ, pair [] f (τ i) = 0 := by intro f; simp [pair, allIndices, hτ.cut i a hi hx hh]
      rw [h1, zero_add, hτ.sums i a hi hx hh, shapeOf_data ht, pair, add_comm]
      refine congrArg (_ + ·) (allIndices_sum_congr fun idx hidx => ?_)
      have : rowMajor t.shape idx < t.shape.prod := rowMajor_lt hidx
      simp [gv, Raw.newWithFiller, List.getD_eq_getElem?_getD, this]
    | @dot a b t u v hil hh' ht hu hv hai hbi fa fb hts hsh _ =>
      rw [hh] at hh'
      cases hh'
      subst hil
      have hs := (shapeOf_data hv).trans hsh
      obtain ⟨wt, pt⟩ := hl.data a t (Or.inr fa) ht
      obtain ⟨wu, pu⟩ := hl.data b u (Or.inr fb) hu
      rcases hG with ⟨h0, _⟩ | ⟨_, rfl, rfl⟩
      · exact absurd rfl h0
      have row : ∀ {w w' : Raw ℝ}, w.shape = w'.shape → (∃ n, w.shape = [1, n]) → w'.shape = [1, w.shape.prod] := by
        rintro w w' h1 ⟨n, h2⟩
        rw [← h1, h2]
        simp
      obtain ⟨u1, u2, e1, e2, rfl⟩ := jvpUpdates_two (k := .dot) (s := u) (r := t) ht hu dotJvp_scalar_one e'
      rw [ctr_append, child a t u u1 fa ht ((hl.rows a b hh a (Or.inl rfl)).imp id fun h1 => row hts (by rwa [shapeOf_data ht] at h1)) wu e1,
        child b u t u2 fb hu ((hl.rows a b hh b (Or.inr rfl)).imp id fun h1 => row hts.symm (by rwa [shapeOf_data hu] at h1)) wt e2,
        add_add_add_comm, hτ.pass i _ hi hx hh (by simp), hs]
      simp only [List.map_cons, List.map_nil, List.sum_cons, List.sum_nil, add_zero]
      refine congrArg (· + _) ?_
      have h1 : pair [1] (fun _ => 1) (τ i) = τ i [0] := by simp [pair, allIndices]
      rw [h1, hτ.dot i a b hi hx hh, shapeOf_data ht, ht, hu, ← hts, pair, pair, ← List.sum_map_add]
      refine allIndices_sum_congr fun idx hidx => ?_
      rw [coord_some, coord_some]
      simp only [gv, cell, hts]
      ring

theorem coord_addGrad {s : List Nat} {o : Option (Raw ℝ)} {c : Raw ℝ} (ho : GradLock.Fit (some s) o) (hc : c.shape = s ∧ WF c) {e : List Nat}
    (he : InRange s e) : coord (addGrad o (some c)) e = coord o e + cell c e := by
  cases o with
  | none => simp only [addGrad, coord_some]; simp [coord]
  | some p =>
    obtain ⟨h1, h2⟩ := ho s rfl p rfl
    have hp : rowMajor s e < p.array.length := by rw [h2, h1]; exact rowMajor_lt he
    have hc' : rowMajor s e < c.array.length := by rw [hc.2, hc.1]; exact rowMajor_lt he
    simp only [addGrad, coord_some, cell, h1, hc.1]
    simp [List.getElem?_zipWith, hp, hc']

theorem coord_addAll {s e : List Nat} (he : InRange s e) : ∀ {cs : List (Raw ℝ)} {o : Option (Raw ℝ)}, GradLock.Fit (some s) o →
    (∀ c ∈ cs, c.shape = s ∧ WF c) → coord (addAll o cs) e = coord o e + (cs.map fun c => cell c e).sum ∧ GradLock.Fit (some s) (addAll o cs) ∧
      (o ≠ none ∨ cs ≠ [] → addAll o cs ≠ none) := by
  intro cs
  induction cs with
  | nil => intro o ho _; exact ⟨by simp [addAll], ho, by simp [addAll]⟩
  | cons c cs ih =>
    intro o ho hc
    have hcc := hc c (by simp)
    obtain ⟨h1, h2, h3⟩ := ih (o := addGrad o (some c)) (ho.addGrad (by rw [hcc.1]) hcc.2) fun d hd => hc d (by simp [hd])
    have hu : addAll o (c :: cs) = addAll (addGrad o (some c)) cs := rfl
    rw [hu]
    refine ⟨?_, h2, fun _ => h3 (Or.inl ?_)⟩
    · rw [h1, coord_addGrad ho hcc he, List.map_cons, List.sum_cons, add_assoc]
    · cases o <;> simp [addGrad]

/-- a shape with one element has one index -/
theorem allIndices_one {s idx : List Nat} (h1 : s.prod = 1) (hi : InRange s idx) : allIndices s = [idx] := by
  have hl : (allIndices s).length = 1 := by rw [allIndices_length, h1]
  obtain ⟨j, hj⟩ := List.length_eq_one_iff.1 hl
  have := mem_allIndices.2 hi
  rw [hj] at this ⊢
  simp only [List.mem_singleton] at this
  rw [this]

theorem backward_sweeps {h h' : Heap ℝ} {l x : Nat} {v : Raw ℝ} (hg : h.Good) (hl : RealLoss h l)
    (e : backward h l = .ok h') (hx : Ancestor h x l) (hv : dataOf h x = some v)
    (hfit : ∀ p, gradOf h x = some p → p.shape = v.shape ∧ WF p) :
    ∃ g, gradOf h' x = some g ∧ g.shape = v.shape ∧ WF g ∧ ∀ c, InRange v.shape c → ∀ il, InRange (shapeOf h l) il →
      ∀ τ ε, Sweeps h l x c τ ε → Raw.elem? g c = some (coord (gradOf h x) c + (τ l il + ε l)) := by
  obtain ⟨n, d, us, hln, hlen, hd, u1, a1⟩ := backward_inv hg e
  have hxn : ∃ nx, h[x]? = some nx := by
    simp only [dataOf, Option.map_eq_some_iff] at hv
    exact ⟨_, hv.choose_spec.1⟩
  obtain ⟨nx, hnx⟩ := hxn
  have hvx : nx.val = v := by
    rw [dataOf_node hnx] at hv
    exact Option.some.inj hv
  subst hvx
  have hcs : ∀ c ∈ contribsTo x us, c.shape = nx.val.shape ∧ WF c := gradContribs_shape u1 hnx
  have hF : GradLock.Fit (some nx.val.shape) (gradOf h x) := by
    intro s hs g hg'
    cases hs
    exact hfit g hg'
  have hacc : gradOf h' x = addAll (gradOf h x) (contribsTo x us) :=
    gradAccum_fit hcs hF (applyUpdates_grad hg (getElem?_lt hnx) a1)
  have hne : contribsTo x us ≠ [] := by
    have h2 := jvpUpdates_paths hg hln hd u1
    obtain ⟨p, hp⟩ := hx.path
    have hm := (mem_pathsOf (fuel := h.length + 1) hg hln hd (by have := getElem?_lt hln; omega)).2 hp
    have : x ∈ us.map Prod.fst := by
      rw [h2]
      exact List.mem_map.2 ⟨_, hm, rfl⟩
    obtain ⟨u, hu, hux⟩ := List.mem_map.1 this
    intro h0
    have : u.2 ∈ contribsTo x us := List.mem_map.2 ⟨u, List.mem_filter.2 ⟨hu, by simp [hux]⟩, rfl⟩
    rw [h0] at this
    simp at this
  have hpos := (hl.data x _ (Or.inr hx) (dataOf_node hnx)).2
  have hz : InRange nx.val.shape (List.replicate nx.val.shape.length 0) := by
    have : ∀ s : List Nat, Pos s → InRange s (List.replicate s.length 0) := by
      intro s hs
      induction s with
      | nil => exact .nil
      | cons a s ih =>
        exact .cons (hs a (by simp)) (ih fun b hb => hs b (by simp [hb]))
    exact this _ hpos
  obtain ⟨_, hfit', hsome⟩ := coord_addAll hz hF hcs
  rw [← hacc] at hfit' hsome
  obtain ⟨g, hgr⟩ := Option.ne_none_iff_exists'.1 (hsome (Or.inr hne))
  obtain ⟨hgs, hgw⟩ := hfit' _ rfl g hgr
  refine ⟨g, hgr, hgs, hgw, fun c hc il hil τ ε hτ => ?_⟩
  have hxl : l ≠ x := (ancestor_lt hg hx).ne'
  have := jvp_tangent hg hl hτ (by rw [shapeOf_eq hnx]; exact hc) (h.length + 1) l d (Raw.scalar 1) (fun _ => 1) us (Or.inl rfl) hxl
    (by simp [historyOf, hln, hd]) u1 (Or.inr ⟨rfl, rfl, rfl⟩)
  have hpair : pair (shapeOf h l) (fun _ => 1) (τ l) = τ l il := by
    simp [pair, allIndices_one hl.one hil]
  rw [hpair] at this
  obtain ⟨h1, _, _⟩ := coord_addAll hc hF hcs
  rw [← hacc, hgr, coord_some] at h1
  rw [elem_cell hgw (by rw [hgs]; exact hc), h1]
  unfold ctr at this
  rw [this]

/-- what does not depend on `x` has derivative 0 -/
theorem tan_zero {h : Heap ℝ} {l x : Nat} {e : List Nat} {τ : Nat → List Nat → ℝ} (hg : h.Good) (hl : RealLoss h l) (hτ : Tan h l x e τ) :
    ∀ i, Feeds h i l → ¬ Feeds h x i → ∀ idx, InRange (shapeOf h i) idx → τ i idx = 0 := by
  intro i
  induction i using Nat.strong_induction_on with
  | _ i ih =>
  intro hi hn idx hidx
  have hx : i ≠ x := fun h0 => hn (Or.inl h0.symm)
  have inp : ∀ {d : Deriv}, historyOf h i = some (some d) → ∀ a ∈ d.inputs, ¬ Feeds h x a := by
    intro d hh a ha hf
    simp only [historyOf, Option.map_eq_some_iff] at hh
    obtain ⟨nd, hnd, hd⟩ := hh
    have hia : IsInput h a i := ⟨nd, d, hnd, hd, ha⟩
    rcases hf with rfl | hf
    · exact hn (Or.inr (.single hia))
    · exact hn (Or.inr (hf.tail hia))
  cases nodeForm hg hl hi with
  | leaf hh => exact hτ.leaf i hi hx hh idx hidx
  | @add a b t u v hh ht hu hv hai hbi fa fb hc hsh _ =>
    obtain ⟨_, pt⟩ := hl.data a t (Or.inr fa) ht
    obtain ⟨_, pu⟩ := hl.data b u (Or.inr fb) hu
    obtain ⟨h1, h2⟩ := bproj_mem pt pu hc (idx := idx) (by rw [← hsh, ← shapeOf_data hv]; exact hidx)
    rw [hτ.add i a b hi hx hh idx hidx, shapeOf_data ht, shapeOf_data hu,
      ih a hai (Or.inr fa) (inp hh a (by simp)) _ (shapeOf_data ht ▸ h1), ih b hbi (Or.inr fb) (inp hh b (by simp)) _ (shapeOf_data hu ▸ h2), add_zero]
  | @unary a k t v hk hh ht hv hai fa _ hsh _ =>
    rw [hτ.unary i a k t hk hi hx hh ht idx hidx,
      ih a hai (Or.inr fa) (inp hh a (by simp)) idx (by rw [shapeOf_data ht, ← hsh, ← shapeOf_data hv]; exact hidx), mul_zero]
  | @bmm a b m k n t u v _ hh ht hu hv hai hbi fa fb hts hus hsh _ =>
    rw [shapeOf_data hv, hsh] at hidx
    obtain ⟨r, c, rfl⟩ : ∃ r c, idx = [r, c] := List.length_eq_two.1 hidx.length_eq.symm
    obtain ⟨hr, hc⟩ := inRange2.1 hidx
    rw [hτ.bmm i a b t u hi hx hh ht hu m k n hts hus r hr c hc]
    refine Finset.sum_eq_zero fun j hj => ?_
    rw [Finset.mem_range] at hj
    rw [ih a hai (Or.inr fa) (inp hh a (by simp)) _ (by rw [shapeOf_data ht, hts]; exact inRange2.2 ⟨hr, hj⟩),
      ih b hbi (Or.inr fb) (inp hh b (by simp)) _ (by rw [shapeOf_data hu, hus]; exact inRange2.2 ⟨hj, hc⟩), zero_mul, mul_zero, add_zero]
  | @sum a t v hh ht hv hai fa hsh _ =>
    rw [shapeOf_data hv, hsh] at hidx
    obtain rfl : idx = [] := List.length_eq_zero_iff.1 hidx.length_eq.symm
    rw [hτ.sum i a hi hx hh, allIndices_sum_congr (g := fun _ => 0) fun idx hidx => ih a hai (Or.inr fa) (inp hh a (by simp)) idx hidx]
    simp
  | @dot a b t u v _ hh ht hu hv hai hbi fa fb hts hsh _ =>
    rw [shapeOf_data hv, hsh] at hidx
    obtain rfl := inRange_one hidx
    rw [hτ.dot i a b t u hi hx hh ht hu, allIndices_sum_congr (g := fun _ => 0) fun idx hidx => by
      rw [ih a hai (Or.inr fa) (inp hh a (by simp)) idx (by rwa [shapeOf_data ht]),
        ih b hbi (Or.inr fb) (inp hh b (by simp)) idx (by rw [shapeOf_data hu, ← hts]; exact hidx), zero_mul, mul_zero, add_zero]]
    simp

theorem Tan.tangents {h : Heap ℝ} {l x : Nat} {e : List Nat} {τ : Nat → List Nat → ℝ} (hg : h.Good) (hl : RealLoss h l)
    (hsm : SmallFor h l x) (hτ : Tan h l x e τ) : Tangents h l x e τ := by
  have dat : ∀ {i : Nat} {d : Deriv}, historyOf h i = some (some d) → ∀ a ∈ d.inputs, ∃ t, dataOf h a = some t := by
    intro i d hh a ha
    obtain ⟨n, hn, _, ⟨a', b', na, nb, hab, _, _, _, ha', hb', _⟩ | ⟨a', na, hab, _, _, ha', _⟩⟩ := fwd_inputs hg hh
    · rw [hab] at ha
      simp only [List.mem_cons, List.not_mem_nil, or_false] at ha
      rcases ha with rfl | rfl
      · exact ⟨_, dataOf_node ha'⟩
      · exact ⟨_, dataOf_node hb'⟩
    · rw [hab] at ha
      simp only [List.mem_cons, List.not_mem_nil, or_false] at ha
      subst ha
      exact ⟨_, dataOf_node ha'⟩
  have small : ∀ {a m k : Nat}, Feeds h a l → shapeOf h a = [m, k] → (Feeds h x a → (shapeOf h a).prod ≤ 32) → ∀ {r j}, r < m → j < k →
      shuffled m k (τ a) r j = τ a [r, j] := by
    intro a m k fa hs hp r j hr hj
    by_cases hf : Feeds h x a
    · exact seg_small (by have := hp hf; rw [hs] at this; simpa using this) (τ a) hr hj
    · obtain ⟨h1, h2⟩ := seg_inRange hr hj
      rw [tan_zero hg hl hτ a fa hf [r, j] (by rw [hs]; exact inRange2.2 ⟨hr, hj⟩)]
      exact tan_zero hg hl hτ a fa hf _ (by rw [hs]; exact inRange2.2 ⟨h1, h2⟩)
  refine ⟨⟨hτ.self, hτ.leaf, hτ.add, ?_, ?_, ?_, ?_, ?_, ?_⟩, hτ.sum⟩
  · intro i a hi hx hh idx hidx
    obtain ⟨t, ht⟩ := dat hh a (by simp)
    rw [hτ.unary i a .neg t trivial hi hx hh ht idx hidx]
    simp [uder]
  · intro i a hi hx hh idx hidx
    obtain ⟨t, ht⟩ := dat hh a (by simp)
    rw [hτ.unary i a .relu t trivial hi hx hh ht idx hidx, ht, coord_some]
    simp only [uder, reluDeriv]
    split <;> simp
  · intro i a hi hx hh idx hidx
    obtain ⟨t, ht⟩ := dat hh a (by simp)
    rw [hτ.unary i a .abs t trivial hi hx hh ht idx hidx, ht, coord_some]
    by_cases h0 : cell t idx < 0
    · simp [uder, absDeriv, h0, not_le.2 h0]
    · simp [uder, absDeriv, h0, not_lt.1 h0]
  · intro i a hi hx hh idx hidx
    obtain ⟨t, ht⟩ := dat hh a (by simp)
    rw [hτ.unary i a .tanh t trivial hi hx hh ht idx hidx, ht, coord_some]
    rfl
  · intro i a b hi hx hh m k n sa sb r hr c hc
    obtain ⟨t, ht⟩ := dat hh a (by simp)
    obtain ⟨u, hu⟩ := dat hh b (by simp)
    have anc : ∀ z, z ∈ [a, b] → Feeds h z l := by
      have hh' := hh
      simp only [historyOf, Option.map_eq_some_iff] at hh'
      obtain ⟨nd, hnd, hd⟩ := hh'
      exact fun z hz => Or.inr (hi.input hnd hd hz)
    obtain ⟨s1, s2⟩ := hsm i a b hi hh
    rw [hτ.bmm i a b t u hi hx hh ht hu m k n ((shapeOf_data ht).symm.trans sa) ((shapeOf_data hu).symm.trans sb) r hr c hc, ht, hu]
    refine Finset.sum_congr rfl fun j hj => ?_
    rw [Finset.mem_range] at hj
    rw [small (anc a (by simp)) sa s1 hr hj, small (anc b (by simp)) sb s2 hj hc, coord_some, coord_some]
  · intro i a b hi hx hh
    obtain ⟨t, ht⟩ := dat hh a (by simp)
    obtain ⟨u, hu⟩ := dat hh b (by simp)
    rw [hτ.dot i a b t u hi hx hh ht hu, shapeOf_data ht, ht, hu]
    simp only [coord_some]

/-- derivatives that follow the recorded operations, with shuffled factors; results of `sum` are constants if `s` is not set -/
noncomputable def tval (s : Bool) (h : Heap ℝ) (x : Nat) (e : List Nat) : Nat → Nat → List Nat → ℝ
  | 0, _, _ => 0
  | fuel + 1, i, idx =>
    if i = x then (if e = idx then 1 else 0) else
    match historyOf h i with
    | some (some ⟨[a, b], .add⟩) => tval s h x e fuel a (bproj (shapeOf h a) idx) + tval s h x e fuel b (bproj (shapeOf h b) idx)
    | some (some ⟨[a], .neg⟩) => -tval s h x e fuel a idx
    | some (some ⟨[a], .relu⟩) => if coord (dataOf h a) idx < 0 then 0 else tval s h x e fuel a idx
    | some (some ⟨[a], .abs⟩) => if coord (dataOf h a) idx < 0 then -tval s h x e fuel a idx else tval s h x e fuel a idx
    | some (some ⟨[a], .tanh⟩) => (1 - Real.tanh (coord (dataOf h a) idx) ^ 2) * tval s h x e fuel a idx
    | some (some ⟨[a, b], .bmm⟩) => ∑ j ∈ Finset.range ((shapeOf h a).getD 1 0),
        (shuffled ((shapeOf h a).getD 0 0) ((shapeOf h a).getD 1 0) (tval s h x e fuel a) (idx.getD 0 0) j * coord (dataOf h b) [j, idx.getD 1 0] +
        coord (dataOf h a) [idx.getD 0 0, j] * shuffled ((shapeOf h b).getD 0 0) ((shapeOf h b).getD 1 0) (tval s h x e fuel b) j (idx.getD 1 0))
    | some (some ⟨[a], .sum⟩) => if s then ((allIndices (shapeOf h a)).map (tval s h x e fuel a)).sum else 0
    | some (some ⟨[a, b], .dot⟩) => ((allIndices (shapeOf h a)).map fun idx =>
        tval s h x e fuel a idx * coord (dataOf h b) idx + coord (dataOf h a) idx * tval s h x e fuel b idx).sum
    | _ => 0

theorem tval_fuel (s : Bool) {h : Heap ℝ} (hg : h.Good) (x : Nat) (e : List Nat) : ∀ (f f' i : Nat), i < f → i < f' →
    tval s h x e f i = tval s h x e f' i := by
  intro f
  induction f with
  | zero => intro f' i hi; omega
  | succ f ih =>
    intro f' i hi hi'
    obtain ⟨f', rfl⟩ : ∃ k, f' = k + 1 := ⟨f' - 1, by omega⟩
    funext idx
    have old : ∀ {d : Deriv}, historyOf h i = some (some d) → ∀ a ∈ d.inputs, tval s h x e f a = tval s h x e f' a := by
      intro d hh a ha
      simp only [historyOf, Option.map_eq_some_iff] at hh
      obtain ⟨nd, hnd, hd⟩ := hh
      have := (hg i nd hnd).older d hd a ha
      exact ih f' a (by omega) (by omega)
    unfold tval
    by_cases hx : i = x
    · simp [hx]
    · simp only [hx, if_false]
      split
      · next hh => rw [old hh _ (by simp), old hh _ (by simp)]
      · next hh => rw [old hh _ (by simp)]
      · next hh => rw [old hh _ (by simp)]
      · next hh => rw [old hh _ (by simp)]
      · next hh => rw [old hh _ (by simp)]
      · next a b hh => rw [old hh a (by simp), old hh b (by simp)]
      · next hh => rw [old hh _ (by simp)]
      · next a b hh => rw [old hh a (by simp), old hh b (by simp)]
      · rfl

theorem tval_rules (s : Bool) {h : Heap ℝ} (hg : h.Good) (l x : Nat) (e : List Nat) : StepRules h l x e (fun i => tval s h x e (i + 1) i) ∧
    ∀ i a, i ≠ x → historyOf h i = some (some ⟨[a], .sum⟩) →
      tval s h x e (i + 1) i [] = if s then ((allIndices (shapeOf h a)).map (tval s h x e (a + 1) a)).sum else 0 := by
  have old : ∀ {i : Nat} {d : Deriv}, historyOf h i = some (some d) → ∀ a ∈ d.inputs, tval s h x e i a = tval s h x e (a + 1) a := by
    intro i d hh a ha
    simp only [historyOf, Option.map_eq_some_iff] at hh
    obtain ⟨nd, hnd, hd⟩ := hh
    exact tval_fuel s hg x e _ _ _ ((hg i nd hnd).older d hd a ha) (by omega)
  refine ⟨⟨?_, ?_, ?_, ?_, ?_, ?_, ?_, ?_, ?_⟩, ?_⟩
  · intro idx _
    simp [tval]
  · intro i hi hx hh idx hidx
    simp only [tval, hx, if_false, hh]
  · intro i a b _ hx hh idx _
    rw [tval]
    simp only [hx, if_false, hh]
    rw [old hh a (by simp), old hh b (by simp)]
  · intro i a _ hx hh idx _
    rw [tval]
    simp only [hx, if_false, hh]
    rw [old hh a (by simp)]
  · intro i a _ hx hh idx _
    rw [tval]
    simp only [hx, if_false, hh]
    rw [old hh a (by simp)]
  · intro i a _ hx hh idx _
    rw [tval]
    simp only [hx, if_false, hh]
    rw [old hh a (by simp)]
  · intro i a _ hx hh idx _
    rw [tval]
    simp only [hx, if_false, hh]
    rw [old hh a (by simp)]
  · intro i a b _ hx hh m k n sa sb r _ c _
    rw [tval]
    simp only [hx, if_false, hh, sa, sb]
    rw [old hh a (by simp), old hh b (by simp)]
    rfl
  · intro i a b _ hx hh
    rw [tval]
    simp only [hx, if_false, hh]
    rw [old hh a (by simp), old hh b (by simp)]
  · intro i a hx hh
    rw [tval]
    simp only [hx, if_false, hh]
    rw [old hh a (by simp)]

theorem tangents_exists {h : Heap ℝ} (hg : h.Good) (l x : Nat) (e : List Nat) : ∃ τ, Tangents h l x e τ := by
  obtain ⟨h1, h2⟩ := tval_rules true hg l x e
  exact ⟨_, h1, fun i a _ hx hh => by simpa using h2 i a hx hh⟩

theorem tangents_unique {h : Heap ℝ} {l x : Nat} {e : List Nat} {τ τ' : Nat → List Nat → ℝ} (hg : h.Good) (hl : RealLoss h l)
    (hτ : Tangents h l x e τ) (hτ' : Tangents h l x e τ') : ∀ i, Feeds h i l → ∀ idx, InRange (shapeOf h i) idx → τ i idx = τ' i idx := by
  intro i
  induction i using Nat.strong_induction_on with
  | _ i ih =>
  intro hi idx hidx
  by_cases hx : i = x
  · subst hx
    rw [hτ.self idx hidx, hτ'.self idx hidx]
  cases nodeForm hg hl hi with
  | leaf hh => rw [hτ.leaf i hi hx hh idx hidx, hτ'.leaf i hi hx hh idx hidx]
  | @add a b t u v hh ht hu hv hai hbi fa fb hc hsh _ =>
    obtain ⟨_, pt⟩ := hl.data a t (Or.inr fa) ht
    obtain ⟨_, pu⟩ := hl.data b u (Or.inr fb) hu
    obtain ⟨h1, h2⟩ := bproj_mem pt pu hc (idx := idx) (by rw [← hsh, ← shapeOf_data hv]; exact hidx)
    rw [hτ.add i a b hi hx hh idx hidx, hτ'.add i a b hi hx hh idx hidx, shapeOf_data ht, shapeOf_data hu,
      ih a hai (Or.inr fa) _ (shapeOf_data ht ▸ h1), ih b hbi (Or.inr fb) _ (shapeOf_data hu ▸ h2)]
  | @unary a k t v hk hh ht hv hai fa _ hsh _ =>
    rw [hτ.unary hk hi hx hh ht hidx, hτ'.unary hk hi hx hh ht hidx,
      ih a hai (Or.inr fa) idx (by rw [shapeOf_data ht, ← hsh, ← shapeOf_data hv]; exact hidx)]
  | @bmm a b m k n t u v _ hh ht hu hv hai hbi fa fb hts hus hsh _ =>
    rw [shapeOf_data hv, hsh] at hidx
    obtain ⟨r, c, rfl⟩ : ∃ r c, idx = [r, c] := List.length_eq_two.1 hidx.length_eq.symm
    obtain ⟨hr, hc⟩ := inRange2.1 hidx
    have sa := (shapeOf_data ht).trans hts
    have sb := (shapeOf_data hu).trans hus
    rw [hτ.bmm i a b hi hx hh m k n sa sb r hr c hc, hτ'.bmm i a b hi hx hh m k n sa sb r hr c hc]
    refine Finset.sum_congr rfl fun j hj => ?_
    rw [Finset.mem_range] at hj
    have s1 := seg_inRange hr hj
    have s2 := seg_inRange hj hc
    have e1 : shuffled m k (τ a) r j = shuffled m k (τ' a) r j := ih a hai (Or.inr fa) _ (by rw [sa]; exact inRange2.2 s1)
    have e2 : shuffled k n (τ b) j c = shuffled k n (τ' b) j c := ih b hbi (Or.inr fb) _ (by rw [sb]; exact inRange2.2 s2)
    rw [e1, e2]
  | @sum a t v hh ht hv hai fa hsh _ =>
    rw [shapeOf_data hv, hsh] at hidx
    obtain rfl : idx = [] := List.length_eq_zero_iff.1 hidx.length_eq.symm
    rw [hτ.sum i a hi hx hh, hτ'.sum i a hi hx hh]
    exact allIndices_sum_congr fun idx hidx => ih a hai (Or.inr fa) idx hidx
  | @dot a b t u v _ hh ht hu hv hai hbi fa fb hts hsh _ =>
    rw [shapeOf_data hv, hsh] at hidx
    obtain rfl := inRange_one hidx
    rw [hτ.dot i a b hi hx hh, hτ'.dot i a b hi hx hh]
    refine allIndices_sum_congr fun idx hidx => ?_
    rw [ih a hai (Or.inr fa) idx hidx, ih b hbi (Or.inr fb) idx (by rw [shapeOf_data hu, ← hts, ← shapeOf_data ht]; exact hidx)]

end RL
