import Verif.Props.Cost
import Verif.Props.Accept

/-!
# Exactly when the work of training steps stays the same (C60) and when a dot product can be used in a loss (C41)
-/

namespace RL

open Spec

variable {T : Type} [Zero T] [One T] [Add T] [Mul T] [Sub T] [Neg T] [LT T] [DecidableLT T] [LE T] [DecidableLE T] [RealFn T]

/-- C60, exactly: after `n` steps `backward` does as many updates as in the first one if and only if `n` is 0 or the network has no parameters. -/
theorem C60_exact (h h' h1 h2 : Heap T) (mlp mlp' : Mlp T) (x y n l1 l2 w1 w2 : Nat) (lr : T) (hr : Reachable h)
    (hc : ∀ l ∈ mlp.layers, ∃ c, Extends l.activation c) (hp : ∀ p ∈ mlp.params, p < h.length) (hx : x < h.length) (hy : y < h.length)
    (e : train mlp h x y lr n = .ok (h', mlp')) (e1 : trainLoss mlp h x y = .ok (h1, l1)) (e2 : trainLoss mlp' h' x y = .ok (h2, l2))
    (hw1 : Ways h1 l1 w1) (hw2 : Ways h2 l2 w2) : w2 = w1 ↔ n = 0 ∨ mlp.layers = [] := by
  rw [C60_actual h h' h1 h2 mlp mlp' x y n l1 l2 w1 w2 lr hr hc hp hx hy e e1 e2 hw1 hw2]
  have h3 : mlp.params.length = 0 ↔ mlp.layers = [] := by
    cases hl : mlp.layers with
    | nil => simp [Mlp.params, hl]
    | cons l ls => simp [Mlp.params, hl, Linear.params]
  rw [← h3]
  simp

/-- C41, exactly: the sum of the dot product of two leaves (without zero-length dimensions, with gradients of their shapes) is a loss if and only if
they are scalars or 1x1 matrices. -/
theorem C41_exact (h h' : Heap T) (l r : Nat) (a b : Raw T) (hr : Reachable h) (hl : historyOf h l = some none) (hr' : historyOf h r = some none)
    (ha : dataOf h l = some a) (hb : dataOf h r = some b) (wa : WF a) (wb : WF b) (pos : Pos a.shape)
    (fl : ∀ g, gradOf h l = some g → g.shape = a.shape ∧ WF g) (fr : ∀ g, gradOf h r = some g → g.shape = b.shape ∧ WF g)
    (e : runOps h [.dot l r, .sum h.length] = .ok h') : (∃ h'', backward h' (h.length + 2) = .ok h'') ↔ a.shape = [] ∨ a.shape = [1, 1] := by
  have hre : Reachable h' := by
    obtain ⟨ops, e0⟩ := hr
    exact ⟨ops ++ [.dot l r, .sum h.length], by rw [runOps_append, e0]; exact e⟩
  obtain ⟨ln, hln, rfl⟩ := dataOf_eq.1 ha
  obtain ⟨rn, hrn, rfl⟩ := dataOf_eq.1 hb
  have hll := getElem?_lt hln
  have hrl := getElem?_lt hrn
  rw [runOps_cons, R.bind_eq_ok] at e
  obtain ⟨h1, e1, e⟩ := e
  rw [runOps_cons, R.bind_eq_ok] at e
  obtain ⟨h2, e2, e⟩ := e
  cases e
  simp only [Op.run, dotT, R.bind_eq_ok, R.pure_eq_ok, Heap.node_eq_ok] at e1
  obtain ⟨_, ⟨ln', hln', rn', hrn', v, ev, rfl⟩, rfl⟩ := e1
  rw [hln] at hln'
  cases hln'
  rw [hrn] at hrn'
  cases hrn'
  have hs : ln.val.shape = rn.val.shape := by
    by_contra hne
    have h3 : (TL.raw ln.val).sameShape (TL.raw rn.val) = false := by simp [TL.sameShape, hne]
    simp only [dotRaw, h3, R.bind_eq_ok] at ev
    obtain ⟨_, h4, _⟩ := ev
    cases h4
  rw [dotRaw_raw wa wb hs] at ev
  cases ev
  simp only [Op.run, sumT, R.bind_eq_ok, R.pure_eq_ok, Heap.node_eq_ok, Heap.alloc, Heap.leaf] at e2
  obtain ⟨_, ⟨n, hn, v, ev, rfl⟩, rfl⟩ := e2
  rw [List.getElem?_append_right le_rfl, Nat.sub_self] at hn
  cases hn
  obtain ⟨hv1, hv2⟩ := sum_post _ _ ev
  dsimp only at hre ⊢
  generalize hD : (Node.mk (Raw.mk [List.foldl (fun x1 x2 => x1 + x2) 0 (List.zipWith (fun x1 x2 => x1 * x2) ln.val.array rn.val.array)] [1]) none
    (some (Deriv.mk [l, r] JvpKind.dot)) : Node T) = D at hre ⊢
  generalize hH : h ++ [D] ++ [leafNode (Raw.newWithFiller [1] 1)] ++
    [Node.mk v (some (h ++ [D]).length) (some (Deriv.mk [h.length] JvpKind.sum))] = H at hre ⊢
  have gold : ∀ i < h.length, H[i]? = h[i]? := by
    intro i hi
    rw [← hH, List.append_assoc, List.append_assoc, List.getElem?_append_left hi]
  have gD : H[h.length]? = some D := by
    rw [← hH, List.append_assoc, List.append_assoc, List.getElem?_append_right le_rfl, Nat.sub_self]
    rfl
  have gS : H[h.length + 2]? = some (Node.mk v (some (h ++ [D]).length) (some (Deriv.mk [h.length] JvpKind.sum))) := by
    rw [← hH, List.getElem?_append_right (by simp)]
    simp
  have hlg : ln.gradFn = none := by
    obtain ⟨n', h3, h4⟩ := historyOf_eq.1 hl
    rw [hln] at h3
    cases h3
    exact h4
  have hrg : rn.gradFn = none := by
    obtain ⟨n', h3, h4⟩ := historyOf_eq.1 hr'
    rw [hrn] at h3
    cases h3
    exact h4
  have hgold : ∀ i n, h[i]? = some n → gradOf H i = gradOf h i := by
    intro i n hn
    have h3 := gold i (getElem?_lt hn)
    simp only [gradOf, h3, hn, Option.bind_some]
    cases hg : n.grad with
    | none => rfl
    | some q =>
      have := (hr.good i n hn).grad q hg
      simp [gold q this]
  have hin : ∀ m c, IsInput H m c → c = h.length + 2 ∨ c = h.length ∨ c = l ∨ c = r → m = h.length ∨ m = l ∨ m = r := by
    rintro m c ⟨n, d, hn, hd, hm⟩ (rfl | rfl | rfl | rfl)
    · rw [gS] at hn
      cases hn
      cases hd
      exact .inl (by simpa using hm)
    · rw [gD, ← hD] at hn
      cases hn
      cases hd
      right
      simpa using hm
    · rw [gold _ hll, hln] at hn
      cases hn
      rw [hlg] at hd
      cases hd
    · rw [gold _ hrl, hrn] at hn
      cases hn
      rw [hrg] at hd
      cases hd
  have hanc : ∀ m, Ancestor H m (h.length + 2) → m = h.length ∨ m = l ∨ m = r := by
    intro m hm
    induction hm using Relation.TransGen.head_induction_on with
    | single h3 => exact hin _ _ h3 (.inl rfl)
    | head h3 _ ih => exact hin _ _ h3 (.inr ih)
  have ancD : Ancestor H h.length (h.length + 2) := .single ⟨_, _, gS, rfl, by simp⟩
  have hDv : D.val.shape = [1] ∧ WF D.val ∧ D.grad = none ∧ D.gradFn = some (Deriv.mk [l, r] JvpKind.dot) := by
    rw [← hD]
    exact ⟨rfl, rfl, rfl, rfl⟩
  rw [C39_exact H hre (h.length + 2) v (Deriv.mk [h.length] JvpKind.sum) (dataOf_eq.2 ⟨_, gS, rfl⟩) (by rw [hv2, hv1]; rfl)
    (historyOf_eq.2 ⟨_, gS, rfl⟩) (by simp) ?_]
  · constructor
    · rintro ⟨-, -, h3⟩
      exact (h3 h.length _ ancD (historyOf_eq.2 ⟨D, gD, hDv.2.2.2⟩)).1 rfl l (by simp) ln.val (dataOf_eq.2 ⟨ln, (gold l hll).trans hln, rfl⟩)
    · intro h3
      refine ⟨by simp, by simp, fun m e' hm he' => ?_⟩
      obtain ⟨n, hn, hg⟩ := historyOf_eq.1 he'
      rcases hanc m hm with rfl | rfl | rfl
      · rw [gD] at hn
        cases hn
        rw [hDv.2.2.2] at hg
        cases hg
        refine ⟨fun _ i hi w hw => ?_, fun h4 => by cases h4⟩
        obtain ⟨n, hn, rfl⟩ := dataOf_eq.1 hw
        rcases (by simpa using hi : i = l ∨ i = r) with rfl | rfl
        · rw [gold _ hll, hln] at hn
          cases hn
          exact h3
        · rw [gold _ hrl, hrn] at hn
          cases hn
          rwa [← hs]
      · rw [gold _ hll, hln] at hn
        cases hn
        rw [hlg] at hg
        cases hg
      · rw [gold _ hrl, hrn] at hn
        cases hn
        rw [hrg] at hg
        cases hg
  · intro m w hm hw
    obtain ⟨n, hn, rfl⟩ := dataOf_eq.1 hw
    rcases hanc m hm with rfl | rfl | rfl
    · rw [gD] at hn
      cases hn
      refine ⟨hDv.2.1, by rw [hDv.1]; simp [Pos], fun g hg => ?_⟩
      simp [gradOf, gD, hDv.2.2.1] at hg
    · rw [gold _ hll, hln] at hn
      cases hn
      refine ⟨wa, pos, fun g hg => ?_⟩
      rw [hgold _ _ hln] at hg
      exact ⟨(fl g hg).2, .inl (fl g hg).1⟩
    · rw [gold _ hrl, hrn] at hn
      cases hn
      refine ⟨wb, hs ▸ pos, fun g hg => ?_⟩
      rw [hgold _ _ hrn] at hg
      exact ⟨(fr g hg).2, .inl (fr g hg).1⟩

section
attribute [local instance] Test.intFn

/-- TEST of `C41_exact`: the dot product of a 1x1 matrix with itself can be summed, that of a vector cannot. -/
example : (∃ h' h'', runOps [leafNode ⟨[3], [1, 1]⟩] [.dot 0 0, .sum 1] = .ok h' ∧ backward h' 3 = .ok h'' ∧ gradOf h'' 0 = some (⟨[6], [1, 1]⟩ : Raw Int)) ∧
    ∃ h' : Heap Int, runOps [leafNode ⟨[3], [1]⟩] [.dot 0 0, .sum 1] = .ok h' ∧ ∀ h'', backward h' 3 ≠ .ok h'' := by
  refine ⟨⟨_, _, rfl, rfl, rfl⟩, _, rfl, fun h'' e => ?_⟩
  have := (C41_exact [leafNode (⟨[3], [1]⟩ : Raw Int)] _ 0 0 ⟨[3], [1]⟩ ⟨[3], [1]⟩ ⟨[.new [3] [1]], rfl⟩ rfl rfl rfl rfl rfl rfl (by simp [Pos])
    (fun g hg => by cases hg) (fun g hg => by cases hg) rfl).1 ⟨h'', e⟩
  simp at this

/-- TEST of `C60_exact`: after two steps `backward` does more updates than in the first step. -/
example : ∃ h' mlp' h1 h2 l1 l2 w1 w2, train c60Net c60Heap 0 1 1 2 = .ok (h', mlp') ∧ trainLoss c60Net c60Heap 0 1 = .ok (h1, l1) ∧
    trainLoss mlp' h' 0 1 = .ok (h2, l2) ∧ Ways h1 l1 w1 ∧ Ways h2 l2 w2 ∧ w2 ≠ w1 := by
  obtain ⟨h', mlp', h2, l2, e, e2, w2⟩ := c60_test 2 (by decide)
  obtain ⟨h0, mlp0, h1, l1, e0, e1, w1⟩ := c60_test 0 (by decide)
  cases e0
  refine ⟨h', mlp', h1, h2, l1, l2, _, _, e, e1, e2, w1, w2, fun he => ?_⟩
  have := (C60_exact c60Heap h' h1 h2 c60Net mlp' 0 1 2 l1 l2 _ _ 1 c60_reachable (fun l hl => ⟨1, c60_acts l hl⟩) (by decide) (by decide) (by decide)
    e e1 e2 w1 w2).1 he
  simp [c60Net] at this

end

end RL
