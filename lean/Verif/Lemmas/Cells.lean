import Verif.Lemmas.SplitWriter

/-!
# The cells of the arrays of `bmm_jvp` after any schedule
-/

namespace RL.SplitWriter

open RL Spec

variable {T : Type}

theorem perm_map_exists {α β : Type _} {f : α → β} : ∀ {l l' : List β}, l.Perm l' → ∀ {r : List α}, l' = r.map f →
    ∃ r' : List α, r'.Perm r ∧ l = r'.map f := by
  intro l l' h
  induction h with
  | nil => intro r hr; exact ⟨[], by cases r <;> simp_all, rfl⟩
  | cons x h ih =>
    intro r hr
    cases r with
    | nil => cases hr
    | cons y r =>
      rw [List.map_cons] at hr
      obtain ⟨r', h1, e⟩ := ih (List.cons.inj hr).2
      exact ⟨y :: r', h1.cons y, by rw [e, (List.cons.inj hr).1, List.map_cons]⟩
  | swap x y l =>
    intro r hr
    match r, hr with
    | a :: b :: r, hr' =>
      simp only [List.map_cons, List.cons.injEq] at hr'
      obtain ⟨e1, e2, e3⟩ := hr'
      exact ⟨b :: a :: r, .swap a b r, by rw [e1, e2, e3]; rfl⟩
  | trans _ _ ih1 ih2 =>
    intro r hr
    obtain ⟨r2, h2, e2⟩ := ih2 hr
    obtain ⟨r1, h1, e1⟩ := ih1 e2
    exact ⟨r1, h1.trans h2, e1⟩

/-- the messages of the tasks, if the operands are matrices of the right sizes -/
theorem IsScope.msgs [Mul T] {a b jac : Raw T} {sh : BmmJvpShapes} {progs : List (Prog T)} (h : IsScope a b jac sh progs)
    {m k n rows : Nat} {A B G : Nat → Nat → T} (ha : IsMat a m k A) (hb : IsMat b k n B) (hj : IsMat jac rows (m * n) G) :
    sh = ⟨[m, n], [m * n, m * k], [rows, m * k], [rows, k * n]⟩ ∧ progs.flatMap (·.msgs) = jvpMsgs m k n rows A B G ∧
      ∀ p ∈ progs, p.fails = false := by
  obtain ⟨hsh, m', k', n', h0, h1, h2, hp⟩ := h
  have e : sh = ⟨[m, n], [m * n, m * k], [rows, m * k], [rows, k * n]⟩ := by
    have : bmmJvpShapes a b jac = .ok ⟨[m, n], [m * n, m * k], [rows, m * k], [rows, k * n]⟩ := by
      simp [bmmJvpShapes, ha.1, hb.1, hj.1, idxR]
    rw [hsh] at this
    exact Except.ok.inj this
  refine ⟨e, ?_⟩
  obtain ⟨tasks, e1, e2⟩ := bmmJvpTasks_ok ha hb hj
  rw [← e] at e1
  rw [bmmJvpTasks_eq h0 h1 h2] at e1
  have key := progs_mapM (f := fun x : Nat × Nat × Nat => bmmJvpTask a b jac sh x.1 x.2.1 x.2.2)
    (g := fun x p => IsProg a b jac sh x.1 x.2.1 x.2.2 p)
    (by intro x p hx q hq; unfold IsProg at hq; simp only [hx] at hq; exact hq)
    (by intro x p hx q hq; unfold IsProg at hq; simp only [hx] at hq; exact hq.1) hp
  rcases key with ⟨er, p, h3, h4, h5⟩ | ⟨tasks', h3, h4, h5⟩
  · rw [h3] at e1; cases e1
  · rw [h3] at e1
    cases e1
    exact ⟨by rw [← h4, e2], h5⟩

/-- every cell is the sum of its contributions in some order -/
theorem IsScope.cells [Zero T] [Add T] [Mul T] {a b jac : Raw T} {sh : BmmJvpShapes} {progs : List (Prog T)}
    (h : IsScope a b jac sh progs) {m k n rows : Nat} {A B G : Nat → Nat → T} (ha : IsMat a m k A) (hb : IsMat b k n B)
    (hj : IsMat jac rows (m * n) G) {s : St T} (hs : Relation.ReflTransGen AnyStep (St.init progs (lens sh)) s) (hc : s.Complete) :
    Sender.failed ∉ s.senders ∧ (s.arr false).length = rows * (m * k) ∧ (s.arr true).length = rows * (k * n) ∧
      (∀ row < rows, ∀ i < m, ∀ kk < k, ∃ order : List Nat, order.Perm (List.range n) ∧
        (s.arr false)[segPos (rows * (m * k)) (row * (m * k) + (i * k + kk))]? =
          some (order.foldl (fun acc j => acc + G row (i * n + j) * B kk j) 0)) ∧
      (∀ row < rows, ∀ kk < k, ∀ j < n, ∃ order : List Nat, order.Perm (List.range m) ∧
        (s.arr true)[segPos (rows * (k * n)) (row * (k * n) + (kk * n + j))]? =
          some (order.foldl (fun acc i => acc + G row (i * n + j) * A i kk) 0)) := by
  obtain ⟨e, hm, hnf⟩ := h.msgs ha hb hj
  obtain ⟨w, q, hi⟩ := h.inv hs
  obtain ⟨rfl, h1, h2⟩ := hi.complete hc
  have hf : Sender.failed ∉ s.senders := by
    rw [h1]
    rintro ⟨p, hp, hq⟩
    rw [hnf p hp] at hq
    cases hq
  have hw := h2 hf
  rw [hm] at hw
  subst e
  have hll : lens (⟨[m, n], [m * n, m * k], [rows, m * k], [rows, k * n]⟩ : BmmJvpShapes) false = rows * (m * k) := by simp [lens]
  have hlr : lens (⟨[m, n], [m * n, m * k], [rows, m * k], [rows, k * n]⟩ : BmmJvpShapes) true = rows * (k * n) := by simp [lens]
  refine ⟨hf, by rw [hi.len, hll], by rw [hi.len, hlr], fun row hrow i hi' kk hk => ?_, fun row hrow kk hk j hjn => ?_⟩
  · have hp : (contribs false (rows * (m * k)) w).Perm (contribs false (rows * (m * k)) (jvpMsgs m k n rows A B G)) := by
      unfold contribs; exact (hw.filter _).map _
    have hp' := hp.filter (fun c => decide (c.1 = segPos (rows * (m * k)) (row * (m * k) + (i * k + kk))))
    rw [contribs_left_cell hrow hi' hk] at hp'
    obtain ⟨o, ho, eo⟩ := perm_map_exists hp' rfl
    refine ⟨o, ho, ?_⟩
    rw [hi.arr, hll, accum_getElem?, eo, List.getElem?_replicate, if_pos (segPos_lt (mul_add_lt hrow (mul_add_lt hi' hk)))]
    simp [List.foldl_map]
  · have hp : (contribs true (rows * (k * n)) w).Perm (contribs true (rows * (k * n)) (jvpMsgs m k n rows A B G)) := by
      unfold contribs; exact (hw.filter _).map _
    have hp' := hp.filter (fun c => decide (c.1 = segPos (rows * (k * n)) (row * (k * n) + (kk * n + j))))
    rw [contribs_right_cell hrow hk hjn] at hp'
    obtain ⟨o, ho, eo⟩ := perm_map_exists hp' rfl
    refine ⟨o, ho, ?_⟩
    rw [hi.arr, hlr, accum_getElem?, eo, List.getElem?_replicate, if_pos (segPos_lt (mul_add_lt hrow (mul_add_lt hk hjn)))]
    simp [List.foldl_map]

end RL.SplitWriter
