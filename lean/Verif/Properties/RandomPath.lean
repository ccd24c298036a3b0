import Mathlib.Tactic.NormNum
import Verif.Lemmas.RandomVertices
import Verif.Model.RandomPath
import Verif.Properties.RandomVertices
import Verif.Spec.RandomPath

set_option linter.unusedSectionVars false

/-!
# Property C149: random paths of the timing benchmark

For every sequence of random numbers, number of dimensions, number of segments and average distance.
-/

namespace Verif.Properties

open Verif.Spec Verif.Lemmas

/-- The arguments that the CHECKs accept, with an average distance that is not negative. -/
def AcceptedPath (n : Int) (segments : ℕ) (average : ℝ) : Prop := 0 < n ∧ 1 ≤ segments ∧ segments < 2 ^ 31 ∧ 0 ≤ average

/-- C149, the claim: whatever is returned is a path with legs of at most twice the average distance. -/
def C149Full : Prop :=
  ∀ (D : ℕ) (n : Int) (segments : ℕ) (average : ℝ) (u : ℕ → ℝ) (vs : List (Vertex ℝ)), AcceptedPath n segments average → Canonical u →
    Vertex.createRandomVerticesPath D segments average n u = .ok vs → RandomPath D n segments average vs

theorem cube_ordered (D : ℕ) : List.Forall₂ (· ≤ ·) (List.replicate D (-1 : ℝ)) (List.replicate D 1) := by
  induction D with
  | zero => exact .nil
  | succ D ih => exact .cons (by norm_num) ih

theorem cube_draw_length (u : ℕ → ℝ) (D k : ℕ) : (Vertex.drawPosition u k (List.replicate D (-1)) (List.replicate D 1)).length = D := by
  rw [drawPosition_length u _ _ (by simp)]; simp

theorem vecLength_scaled (v : List ℝ) (c : ℝ) (hc : 0 ≤ c) : vecLength (v.map fun x => x * c) = vecLength v * c := by
  unfold vecLength
  have : ((v.map fun x => x * c).map (· ^ 2)).sum = (v.map (· ^ 2)).sum * c ^ 2 := by
    induction v with
    | nil => simp
    | cons a v ih => simp only [List.map_cons, List.sum_cons, ih]; ring
  rw [this, Real.sqrt_mul' _ (sq_nonneg c), Real.sqrt_sq hc]

theorem vecLength_nonneg (v : List ℝ) : 0 ≤ vecLength v := Real.sqrt_nonneg _

/-- One step: as long as the distance drawn, which is at most twice the average. -/
theorem randomStep_ok (u : ℕ → ℝ) (hu : Canonical u) (D : ℕ) (average : ℝ) (ha : 0 ≤ average) (k : ℕ) (x : List ℝ × ℕ)
    (h : Vertex.randomStep u D average k = .ok x) : x.1.length = D ∧ vecLength x.1 ≤ 2 * average := by
  unfold Vertex.randomStep at h
  split at h
  · rename_i he
    classical
    have hf := Nat.find_spec he
    rw [← Except.ok.inj h]
    set p := Vertex.drawPosition u (k + Nat.find he * D) (List.replicate D (-1)) (List.replicate D 1) with hp
    set r := u (k + (Nat.find he + 1) * D) with hr
    have hr' := hu (k + (Nat.find he + 1) * D)
    rw [← hr] at hr'
    refine ⟨by simp only [List.length_map, hp, cube_draw_length], ?_⟩
    have hv : vnorm p = vecLength p := rfl
    have hpos : 0 < vecLength p := by rw [← hv]; linarith
    have e : (p.map fun y => y / vnorm p * (r * (2 * average - 0) + 0)) = p.map fun y => y * (r * (2 * average) / vecLength p) := by
      apply List.map_congr_left
      intro y _
      rw [hv]; field_simp; ring
    have : vecLength (p.map fun y => y / vnorm p * (r * (2 * average - 0) + 0)) = r * (2 * average) := by
      rw [e, vecLength_scaled _ _ (div_nonneg (mul_nonneg hr'.1 (by linarith)) hpos.le)]
      field_simp
    show vecLength (p.map fun y => y / vnorm p * (r * (2 * average - 0) + 0)) ≤ _
    rw [this]
    nlinarith [hr'.2]
  · cases h

/-- The vertices of the loop: all but the last go through the points of the steps, the last one through a point that is replaced afterwards. -/
theorem pathLoop_ok (u : ℕ → ℝ) (hu : Canonical u) (D : ℕ) (average : ℝ) (ha : 0 ≤ average) (n k : ℕ) (last : List ℝ) (hl : last.length = D)
    (x : List (Vertex ℝ) × List ℝ) (h : Vertex.pathLoop u D average (n + 1) k last = .ok x) :
    ∃ (steps : List (List ℝ)) (mid : List (List ℝ)) (vs : List (Vertex ℝ)) (v : Vertex ℝ) (q : List ℝ), steps.length = n + 1 ∧
      (∀ s ∈ steps, s.length = D ∧ vecLength s ≤ 2 * average) ∧ stepPoints last steps = mid ++ [x.2] ∧ x.1 = vs ++ [v] ∧ x.2.length = D ∧
      List.Forall₂ (fun v p => p.length = D ∧ Holds D (passes p) v) vs mid ∧ Holds D (passes q) v := by
  induction n generalizing k last x with
  | zero =>
    unfold Vertex.pathLoop at h
    cases hs : Vertex.randomStep u D average k with
    | error e => rw [hs] at h; cases h
    | ok y =>
      rw [hs] at h
      obtain ⟨y1, y2⟩ := randomStep_ok u hu D average ha k y hs
      obtain ⟨v, v1, v2⟩ := position_holds D (List.zipWith (· + ·) y.1 last) (by simp [y1, hl])
      simp only [bind, Except.bind, v1, Vertex.pathLoop, pure, Except.pure] at h
      rw [← Except.ok.inj h]
      exact ⟨[y.1], [], [], v, _, rfl, by simpa using ⟨y1, y2⟩, rfl, rfl, y1, .nil, v2⟩
  | succ n ih =>
    unfold Vertex.pathLoop at h
    cases hs : Vertex.randomStep u D average k with
    | error e => rw [hs] at h; cases h
    | ok y =>
      rw [hs] at h
      obtain ⟨y1, y2⟩ := randomStep_ok u hu D average ha k y hs
      obtain ⟨v, v1, v2⟩ := position_holds D (List.zipWith (· + ·) y.1 last) (by simp [y1, hl])
      cases hr : Vertex.pathLoop u D average (n + 1) y.2 y.1 with
      | error e => simp only [bind, Except.bind, v1, hr] at h; cases h
      | ok z =>
        simp only [bind, Except.bind, v1, hr, pure, Except.pure] at h
        obtain ⟨steps, mid, vs, w, q, g1, g2, g3, g4, g5, g6, g7⟩ := ih y.2 y.1 y1 z hr
        rw [← Except.ok.inj h]
        refine ⟨y.1 :: steps, List.zipWith (· + ·) y.1 last :: mid, v :: vs, w, q, by simp [g1], ?_, ?_, by simp [g4], g5,
          .cons ⟨by simp [y1, hl], v2⟩ g6, g7⟩
        · intro s hs'
          rcases List.mem_cons.mp hs' with rfl | hs'
          · exact ⟨y1, y2⟩
          · exact g2 s hs'
        · cases steps with
          | nil => simp at g1
          | cons s ss => simp only [stepPoints, g3, List.cons_append]

/-- Past the checks: what is left of the function. -/
theorem createRandomVerticesPath_accepted (D : ℕ) (n : Int) (segments : ℕ) (average : ℝ) (u : ℕ → ℝ) (h : AcceptedPath n segments average) :
    Vertex.createRandomVerticesPath D segments average n u = (do
      let front ← (Vertex.mk' D : Vertex ℝ).makeStartOrEnd (Vertex.drawPosition u 0 (List.replicate D (-1)) (List.replicate D 1)) n
      let rest ← Vertex.pathLoop u D average segments D (Vertex.drawPosition u 0 (List.replicate D (-1)) (List.replicate D 1))
      match (front :: rest.1).getLast? with
      | none => .error .ub
      | some v => do
        let v' ← v.makeStartOrEnd rest.2 n
        return (front :: rest.1).dropLast ++ [v']) := by
  obtain ⟨h1, h2, h3, h4⟩ := h
  unfold Vertex.createRandomVerticesPath
  rw [bmod_segments segments h2 h3, if_neg (by omega), if_neg (by omega), if_neg (by linarith)]
  rfl

theorem path_from_loop (D : ℕ) (n : Int) (segments : ℕ) (average : ℝ) (u : ℕ → ℝ) (h : AcceptedPath n segments average) (hu : Canonical u)
    (x : List (Vertex ℝ) × List ℝ)
    (hx : Vertex.pathLoop u D average segments D (Vertex.drawPosition u 0 (List.replicate D (-1)) (List.replicate D 1)) = .ok x) :
    ∃ vs steps, Vertex.createRandomVerticesPath D segments average n u = .ok vs ∧ steps.length = segments ∧
      (∀ s ∈ steps, s.length = D ∧ vecLength s ≤ 2 * average) ∧
      GoesThrough D n (Vertex.drawPosition u 0 (List.replicate D (-1)) (List.replicate D 1) ::
        stepPoints (Vertex.drawPosition u 0 (List.replicate D (-1)) (List.replicate D 1)) steps) vs := by
  rw [createRandomVerticesPath_accepted D n segments average u h]
  obtain ⟨m, rfl⟩ : ∃ m, segments = m + 1 := ⟨segments - 1, by have := h.2.1; omega⟩
  have hl := cube_draw_length u D 0
  set start := Vertex.drawPosition u 0 (List.replicate D (-1)) (List.replicate D 1)
  obtain ⟨front, f1, f2⟩ := rest_of_new D n start hl
  obtain ⟨steps, mid, vs, v, q, g1, g2, g3, g4, g5, g6, g7⟩ := pathLoop_ok u hu D average h.2.2.2 m D start hl x hx
  -- the position of the last vertex is replaced
  obtain ⟨w, w1, w2, w3, w4⟩ := makeStartOrEnd_ok v x.2 n g7.2.1 (g5.trans g7.1.symm)
  have hw : Holds D (rests n x.2) w := by
    refine ⟨w2.trans g7.1, w3, funext fun j => ?_⟩
    rw [w4 j, g7.2.2, g7.1, rests, g5]
    by_cases h0 : j = 0
    · rw [if_pos h0, if_pos h0]
    · rw [if_neg h0, if_neg h0, passes, if_neg h0]
  refine ⟨front :: (vs ++ [w]), steps, ?_, g1, g2, ?_⟩
  · simp only [f1, hx, bind, Except.bind, g4]
    rw [← List.cons_append, List.getLast?_concat]
    simp only [w1, List.dropLast_concat]
    rfl
  · rw [g3]
    exact goesThrough_ends D n _ x.2 mid front w vs hl g5 f2 hw g6

/-- C149, exactly: the path starts in the cube of side 2; each further point is the sum of the step drawn for it and of the step before, and the last point is the
last step. The steps are at most twice the average distance long. -/
theorem C149_exact_partial (D : ℕ) (n : Int) (segments : ℕ) (average : ℝ) (u : ℕ → ℝ) (h : AcceptedPath n segments average) (hu : Canonical u)
    (vs : List (Vertex ℝ)) (hr : Vertex.createRandomVerticesPath D segments average n u = .ok vs) :
    ∃ start steps, InBox (List.replicate D (-1)) (List.replicate D 1) start ∧ (∀ d, start.getD d 0 = if d < D then 2 * u d - 1 else 0) ∧
      steps.length = segments ∧ (∀ s ∈ steps, s.length = D ∧ vecLength s ≤ 2 * average) ∧ GoesThrough D n (start :: stepPoints start steps) vs := by
  have hr' := hr
  rw [createRandomVerticesPath_accepted D n segments average u h] at hr
  obtain ⟨front, f1, _⟩ := rest_of_new D n (Vertex.drawPosition u 0 (List.replicate D (-1)) (List.replicate D 1)) (cube_draw_length u D 0)
  cases hx : Vertex.pathLoop u D average segments D (Vertex.drawPosition u 0 (List.replicate D (-1)) (List.replicate D 1)) with
  | error e => simp only [f1, hx, bind, Except.bind] at hr; cases hr
  | ok x =>
    obtain ⟨ws, steps, w1, w2, w3, w4⟩ := path_from_loop D n segments average u h hu x hx
    rw [hr'] at w1
    rw [Except.ok.inj w1]
    refine ⟨_, steps, drawPosition_inBox u hu _ _ (cube_ordered D) 0, ?_, w2, w3, w4⟩
    have key : ∀ (D k d : ℕ), (Vertex.drawPosition u k (List.replicate D (-1)) (List.replicate D 1)).getD d 0 = if d < D then 2 * u (k + d) - 1 else 0 := by
      intro D
      induction D with
      | zero => intro k d; simp [Vertex.drawPosition]
      | succ D ih =>
        intro k d
        simp only [List.replicate_succ, Vertex.drawPosition]
        cases d with
        | zero => simp; ring
        | succ d =>
          rw [List.getD_cons_succ, ih (k + 1) d, Nat.add_assoc, Nat.add_comm 1 d]
          simp
    intro d
    rw [key D 0 d]; simp

theorem minkowski2 (a b x y z : ℝ) (hx : 0 ≤ x) (hy : 0 ≤ y) (hz : 0 ≤ z) (h : z ≤ x + y) :
    Real.sqrt ((a + b) ^ 2 + z ^ 2) ≤ Real.sqrt (a ^ 2 + x ^ 2) + Real.sqrt (b ^ 2 + y ^ 2) := by
  have h1 : a * b + x * y ≤ Real.sqrt (a ^ 2 + x ^ 2) * Real.sqrt (b ^ 2 + y ^ 2) := by
    rw [← Real.sqrt_mul (by positivity)]
    apply Real.le_sqrt_of_sq_le
    nlinarith [sq_nonneg (a * y - b * x)]
  have e1 := Real.sq_sqrt (show 0 ≤ a ^ 2 + x ^ 2 by positivity)
  have e2 := Real.sq_sqrt (show 0 ≤ b ^ 2 + y ^ 2 by positivity)
  apply Real.sqrt_le_iff.mpr
  refine ⟨by positivity, ?_⟩
  have : z ^ 2 ≤ (x + y) ^ 2 := by nlinarith
  nlinarith

theorem vecLength_add (v w : List ℝ) (h : v.length = w.length) : vecLength (List.zipWith (· + ·) v w) ≤ vecLength v + vecLength w := by
  induction v generalizing w with
  | nil => simp [vecLength]
  | cons a v ih =>
    cases w with
    | nil => simp at h
    | cons b w =>
      have hs : ∀ (c : ℝ) (l : List ℝ), vecLength (c :: l) = Real.sqrt (c ^ 2 + vecLength l ^ 2) := by
        intro c l
        unfold vecLength
        rw [Real.sq_sqrt]
        · simp
        · apply List.sum_nonneg
          intro y hy
          obtain ⟨z, _, rfl⟩ := List.mem_map.mp hy
          exact sq_nonneg z
      rw [List.zipWith_cons_cons, hs, hs, hs]
      exact minkowski2 _ _ _ _ _ (vecLength_nonneg _) (vecLength_nonneg _) (vecLength_nonneg _) (ih w (by simpa using h))

/-- C149: however many segments there are, the path does not leave the surroundings of the origin: every point but the first two is within four average distances
of it, and the last one within two. -/
theorem C149_stays_partial (D : ℕ) (n : Int) (segments : ℕ) (average : ℝ) (u : ℕ → ℝ) (h : AcceptedPath n segments average) (hu : Canonical u)
    (vs : List (Vertex ℝ)) (hr : Vertex.createRandomVerticesPath D segments average n u = .ok vs) :
    ∃ ps, ps.length = segments + 1 ∧ GoesThrough D n ps vs ∧ (∀ p ∈ ps.drop 2, vecLength p ≤ 4 * average) ∧
      ∀ p, ps.getLast? = some p → vecLength p ≤ 2 * average := by
  obtain ⟨start, steps, hb, _, hl, hs, hg⟩ := C149_exact_partial D n segments average u h hu vs hr
  have hlen : ∀ (l : List ℝ) (xs : List (List ℝ)), (stepPoints l xs).length = xs.length := by
    intro l xs
    induction xs generalizing l with
    | nil => rfl
    | cons a t ih =>
      cases t with
      | nil => rfl
      | cons b r => simp only [stepPoints, List.length_cons, ih a]
  have hbound : ∀ (l : List ℝ) (xs : List (List ℝ)), l.length = D → vecLength l ≤ 2 * average → (∀ s ∈ xs, s.length = D ∧ vecLength s ≤ 2 * average) →
      ∀ p ∈ stepPoints l xs, vecLength p ≤ 4 * average := by
    intro l xs
    induction xs generalizing l with
    | nil => intro _ _ _ p hp; simp [stepPoints] at hp
    | cons a t ih =>
      intro h1 h2 h3 p hp
      have ha := h3 a (by simp)
      cases t with
      | nil =>
        simp only [stepPoints, List.mem_singleton] at hp
        rw [hp]; linarith [ha.2, h.2.2.2]
      | cons b r =>
        simp only [stepPoints, List.mem_cons] at hp
        rcases hp with rfl | hp
        · have := vecLength_add a l (ha.1.trans h1.symm)
          linarith [ha.2]
        · exact ih a ha.1 ha.2 (fun s hs' => h3 s (List.mem_cons_of_mem _ hs')) p hp
  have hlast : ∀ (l : List ℝ) (xs : List (List ℝ)), (stepPoints l xs).getLast? = xs.getLast? := by
    intro l xs
    induction xs generalizing l with
    | nil => rfl
    | cons a t ih =>
      cases t with
      | nil => rfl
      | cons b r =>
        have hne : stepPoints a (b :: r) ≠ [] := by
          intro e
          have := hlen a (b :: r)
          rw [e] at this; simp at this
        rw [stepPoints, List.getLast?_cons_cons, ← ih a]
        obtain ⟨c, t', ht⟩ := List.exists_cons_of_ne_nil hne
        rw [ht, List.getLast?_cons_cons]
  refine ⟨start :: stepPoints start steps, by simp [hlen, hl], hg, ?_, ?_⟩
  · cases steps with
    | nil => simp [stepPoints]
    | cons a t =>
      cases t with
      | nil => simp [stepPoints]
      | cons b r =>
        have ha := hs a (by simp)
        simp only [stepPoints, List.drop_succ_cons, List.drop_zero]
        exact hbound a (b :: r) ha.1 ha.2 (fun s hs' => hs s (List.mem_cons_of_mem _ hs'))
  · intro p hp
    cases steps with
    | nil => simp at hl; have := h.2.1; omega
    | cons a t =>
      have hne : stepPoints start (a :: t) ≠ [] := by
        intro e
        have := hlen start (a :: t)
        rw [e] at this; simp at this
      obtain ⟨c, t', ht⟩ := List.exists_cons_of_ne_nil hne
      rw [ht, List.getLast?_cons_cons, ← ht, hlast] at hp
      exact (hs p (List.mem_of_getLast? hp)).2

theorem pathLoop_total (u : ℕ → ℝ) (hu : Canonical u) (D : ℕ) (average : ℝ) (ha : 0 ≤ average)
    (hfar : ∀ k, ∃ j, 1 / 5 < vnorm (Vertex.drawPosition u (k + j * D) (List.replicate D (-1)) (List.replicate D 1))) (n k : ℕ) (last : List ℝ)
    (hl : last.length = D) : ∃ x, Vertex.pathLoop u D average n k last = .ok x := by
  induction n generalizing k last with
  | zero => exact ⟨_, rfl⟩
  | succ n ih =>
    obtain ⟨y, hy⟩ : ∃ y, Vertex.randomStep u D average k = .ok y := by
      unfold Vertex.randomStep
      rw [dif_pos (hfar k)]
      exact ⟨_, rfl⟩
    obtain ⟨y1, _⟩ := randomStep_ok u hu D average ha k y hy
    obtain ⟨v, v1, _⟩ := position_holds D (List.zipWith (· + ·) y.1 last) (by simp [y1, hl])
    obtain ⟨z, hz⟩ := ih y.2 y.1 y1
    unfold Vertex.pathLoop
    simp only [hy, bind, Except.bind, v1, hz]
    exact ⟨_, rfl⟩

/-- C149: with at least one dimension and a generator that reaches all corners of the cube the function returns. -/
theorem C149_returns (D : ℕ) (n : Int) (segments : ℕ) (average : ℝ) (u : ℕ → ℝ) (h : AcceptedPath n segments average) (hu : Canonical u) (hD : 1 ≤ D)
    (hc : ReachesCorners D u) : ∃ vs, Vertex.createRandomVerticesPath D segments average n u = .ok vs := by
  have hzero : InBox (List.replicate D (-1)) (List.replicate D 1) (List.replicate D (0 : ℝ)) := by
    clear hD hc
    constructor
    · induction D with
      | zero => exact .nil
      | succ D ih => exact .cons (by norm_num) ih
    · induction D with
      | zero => exact .nil
      | succ D ih => exact .cons (by norm_num) ih
  have hdiag : 2 / 5 < pointDistance (List.replicate D (-1)) (List.replicate D (1 : ℝ)) := by
    unfold pointDistance
    rw [List.zipWith_replicate]
    simp only [Nat.min_self, List.sum_replicate, nsmul_eq_mul]
    apply Real.lt_sqrt_of_sq_lt
    have : (1 : ℝ) ≤ D := by exact_mod_cast hD
    nlinarith
  have hfar : ∀ k, ∃ j, 1 / 5 < vnorm (Vertex.drawPosition u (k + j * D) (List.replicate D (-1)) (List.replicate D 1)) := by
    intro k
    obtain ⟨j, hj⟩ := exists_far u _ _ _ (cube_ordered D) hzero hdiag (by simpa using hc) k
    refine ⟨j, ?_⟩
    unfold Vertex.farFrom at hj
    simp only [List.length_replicate] at hj
    have e : ∀ (D : ℕ) (l : List ℝ), l.length = D → List.zipWith (· - ·) l (List.replicate D (0 : ℝ)) = l := by
      intro D
      induction D with
      | zero => intro l hl; simp [List.length_eq_zero_iff.mp hl]
      | succ D ih =>
        intro l hl
        cases l with
        | nil => simp at hl
        | cons a l => rw [List.replicate_succ, List.zipWith_cons_cons, sub_zero, ih l (by simpa using hl)]
    rw [e D _ (cube_draw_length u D _)] at hj
    exact hj
  obtain ⟨x, hx⟩ := pathLoop_total u hu D average h.2.2.2 hfar segments D _ (cube_draw_length u D 0)
  obtain ⟨vs, _, hv, _⟩ := path_from_loop D n segments average u h hu x hx
  exact ⟨vs, hv⟩

/-- C149: without dimensions it never returns. -/
theorem C149_no_dimension (n : Int) (segments : ℕ) (average : ℝ) (u : ℕ → ℝ) (h : AcceptedPath n segments average) :
    Vertex.createRandomVerticesPath 0 segments average n u = .error .hang := by
  rw [createRandomVerticesPath_accepted 0 n segments average u h]
  obtain ⟨m, rfl⟩ : ∃ m, segments = m + 1 := ⟨segments - 1, by have := h.2.1; omega⟩
  obtain ⟨front, f1, _⟩ := rest_of_new 0 n (Vertex.drawPosition u 0 (List.replicate 0 (-1)) (List.replicate 0 1)) (cube_draw_length u 0 0)
  have hs : ∀ k, Vertex.randomStep u 0 average k = .error .hang := by
    intro k
    unfold Vertex.randomStep
    rw [dif_neg]
    rintro ⟨j, hj⟩
    simp [vnorm, Vertex.drawPosition] at hj
    linarith
  simp only [f1, bind, Except.bind, Vertex.pathLoop, hs]

/-- C149: arguments outside the accepted ones are refused by a CHECK; a negative average distance is undefined behaviour. -/
theorem C149_refused (D : ℕ) (n : Int) (segments : ℕ) (average : ℝ) (u : ℕ → ℝ) (hs : segments < 2 ^ 31) (h : ¬ AcceptedPath n segments average) :
    Vertex.createRandomVerticesPath D segments average n u = .error .check ∨
      (Vertex.createRandomVerticesPath D segments average n u = .error .ub ∧ average < 0) := by
  unfold Vertex.createRandomVerticesPath
  by_cases h1 : Int.bmod segments (2 ^ 32) < 1
  · left; rw [if_pos h1]; rfl
  · rw [if_neg h1]
    by_cases h2 : n ≤ 0
    · left; rw [if_pos h2]; rfl
    · rw [if_neg h2]
      by_cases h3 : 2 * average < 0
      · right; rw [if_pos h3]; exact ⟨rfl, by linarith⟩
      · refine absurd ⟨by omega, ?_, hs, by linarith⟩ h
        rcases Nat.eq_zero_or_pos segments with rfl | hp
        · simp at h1
        · exact hp

/-! ## The claim is false -/

theorem goesThrough_points (D : ℕ) (n : Int) (ps qs : List (List ℝ)) (vs : List (Vertex ℝ)) (hp : GoesThrough D n ps vs) (hq : GoesThrough D n qs vs) :
    ps = qs := by
  have hl : ps.length = qs.length := hp.1.symm.trans hq.1
  apply List.ext_getElem hl
  intro i h1 h2
  obtain ⟨v, hv⟩ : ∃ v, vs[i]? = some v := ⟨vs[i]'(by rw [hp.1]; exact h1), List.getElem?_eq_getElem _⟩
  obtain ⟨_, _, a⟩ := hp.2 i _ v (List.getElem?_eq_getElem h1) hv
  obtain ⟨_, _, b⟩ := hq.2 i _ v (List.getElem?_eq_getElem h2) hv
  have z : ∀ (c : Prop) [Decidable c] (p : List ℝ), (if c then rests n p else passes p) 0 = some p := by
    intro c _ p
    split <;> simp [rests, passes]
  have e0 := (b 0 ps[i]).mp ((a 0 ps[i]).mpr (z _ _))
  rw [z] at e0
  exact (Option.some.inj e0).symm

/-- Random numbers for one segment in one dimension: the path starts at -1. -/
noncomputable def fromTheLeft (k : ℕ) : ℝ := if k = 0 then 0 else 9 / 10

/-- C149 is false of the code: with an average distance of 1/10 a leg of at least 8/10. -/
theorem C149_refuted : ¬ C149Full := by
  intro hfull
  have hacc : AcceptedPath 4 1 (1 / 10) := ⟨by norm_num, by norm_num, by norm_num, by norm_num⟩
  have hu : Canonical fromTheLeft := by intro k; unfold fromTheLeft; split <;> norm_num
  have hfar : ∀ k, ∃ j, 1 / 5 < vnorm (Vertex.drawPosition fromTheLeft (k + j * 1) (List.replicate 1 (-1)) (List.replicate 1 1)) := by
    intro k
    refine ⟨1, ?_⟩
    have : fromTheLeft (k + 1 * 1) = 9 / 10 := by unfold fromTheLeft; rw [if_neg (by omega)]
    simp only [List.replicate_one, Vertex.drawPosition, vnorm, List.map_cons, List.map_nil, List.sum_cons, List.sum_nil, this]
    apply Real.lt_sqrt_of_sq_lt
    norm_num
  obtain ⟨x, hx⟩ := pathLoop_total fromTheLeft hu 1 (1 / 10) (by norm_num) hfar 1 1 _ (cube_draw_length fromTheLeft 1 0)
  obtain ⟨vs, _, hv, _⟩ := path_from_loop 1 4 1 (1 / 10) fromTheLeft hacc hu x hx
  obtain ⟨ps, h1, h2, _, h3⟩ := hfull 1 4 1 (1 / 10) fromTheLeft vs hacc hu hv
  obtain ⟨start, steps, hb, hst, hl, hs, hg⟩ := C149_exact_partial 1 4 1 (1 / 10) fromTheLeft hacc hu vs hv
  have he := goesThrough_points 1 4 _ _ vs h2 hg
  obtain ⟨s, rfl⟩ := List.length_eq_one_iff.mp hl
  obtain ⟨s1, s2⟩ := hs s (by simp)
  obtain ⟨a, rfl⟩ := List.length_eq_one_iff.mp s1
  have hsl : start.length = 1 := by rw [← hb.1.length_eq]; simp
  obtain ⟨b, rfl⟩ := List.length_eq_one_iff.mp hsl
  have hb0 := hst 0
  simp only [List.getD_cons_zero, Nat.zero_lt_one, if_true, fromTheLeft] at hb0
  rw [he] at h3
  simp only [stepPoints, List.isChain_cons_cons, List.isChain_singleton, and_true] at h3
  rw [pointDistance_one] at h3
  have ha : |a| ≤ 2 * (1 / 10) := by simpa [vecLength, Real.sqrt_sq_eq_abs] using s2
  rw [hb0] at h3
  have := abs_le.mp ha
  have := abs_le.mp h3
  linarith

/-- Non-vacuity: the arguments of the benchmark (three dimensions, 100 segments, an average distance of 5 and derivatives up to the fourth), and a generator that
reaches the corners of the line. -/
example : AcceptedPath 4 100 5 ∧ Canonical swing ∧ ReachesCorners 1 swing :=
  ⟨⟨by norm_num, by norm_num, by norm_num, by norm_num⟩, swing_canonical, swing_corners⟩

end Verif.Properties
