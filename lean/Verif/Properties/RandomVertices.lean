import Mathlib.Tactic.NormNum
import Mathlib.Tactic.IntervalCases
import Verif.Lemmas.RandomVertices

set_option linter.unusedSectionVars false

/-!
# Properties C134 and C135: generated vertices
-/

namespace Verif.Properties

open Verif.Spec Verif.Lemmas

/-! ## C134: random vertices -/

/-- The arguments that the CHECKs accept, with bounds in order. -/
def AcceptedBox (n : Int) (segments : ℕ) (lo hi : List ℝ) : Prop :=
  0 < n ∧ 1 ≤ segments ∧ segments < 2 ^ 31 ∧ List.Forall₂ (· ≤ ·) lo hi ∧ 1 / 5 ≤ pointDistance lo hi

/-- C134 in full: with accepted arguments and a generator that reaches all corners, the vertices promised are returned. -/
def C134_Full : Prop :=
  ∀ (n : Int) (segments : ℕ) (lo hi : List ℝ) (u : ℕ → ℝ), AcceptedBox n segments lo hi → Canonical u →
    ReachesCorners lo.length u →
    ∃ vs, Vertex.createRandomVertices n segments lo hi u = .ok vs ∧ RandomRoute n segments lo hi vs

theorem bmod_segments (segments : ℕ) (h1 : 1 ≤ segments) (h2 : segments < 2 ^ 31) :
    Int.bmod (segments : ℤ) (2 ^ 32) = segments := by
  rw [Int.bmod_eq_of_le] <;> omega

/-- Past the checks: what is left of the function. -/
theorem createRandomVertices_accepted (n : Int) (segments : ℕ) (lo hi : List ℝ) (u : ℕ → ℝ)
    (h : AcceptedBox n segments lo hi) :
    Vertex.createRandomVertices n segments lo hi u = (do
      let front ← (Vertex.mk' lo.length : Vertex ℝ).makeStartOrEnd (Vertex.drawPosition u 0 lo hi) n
      let rest ← Vertex.randomLoop u lo hi segments lo.length (Vertex.drawPosition u 0 lo hi)
      match (front :: rest.1).getLast? with
      | none => .error .ub
      | some v => do
        let v' ← v.makeStartOrEnd rest.2 n
        return (front :: rest.1).dropLast ++ [v']) := by
  obtain ⟨h1, h2, h3, h4, h5⟩ := h
  unfold Vertex.createRandomVertices
  rw [bmod_segments segments h2 h3, if_neg (by omega), if_neg (by rw [not_not]; exact h4.length_eq),
    if_neg (by rw [vnorm_pointDistance]; exact not_lt.mpr h5), if_neg (by omega), if_neg (not_not.mpr h4)]
  rfl

theorem random_from_loop (n : Int) (segments : ℕ) (lo hi : List ℝ) (u : ℕ → ℝ) (h : AcceptedBox n segments lo hi)
    (hu : Canonical u) (x : List (Vertex ℝ) × List ℝ)
    (hx : Vertex.randomLoop u lo hi segments lo.length (Vertex.drawPosition u 0 lo hi) = .ok x) :
    ∃ vs, Vertex.createRandomVertices n segments lo hi u = .ok vs ∧ RandomRoute n segments lo hi vs := by
  rw [createRandomVertices_accepted n segments lo hi u h]
  obtain ⟨h1, h2, h3, h4, h5⟩ := h
  have hlen := h4.length_eq
  have hfl := drawPosition_length u lo hi hlen 0
  obtain ⟨front, f1, f2⟩ := rest_of_new lo.length n (Vertex.drawPosition u 0 lo hi) hfl
  obtain ⟨ps, g1, g2, g3, g4, g5⟩ := randomLoop_ok u lo hi hlen segments lo.length _ x hx
  have hne : ps ≠ [] := by intro e; rw [e] at g1; simp at g1; omega
  have g5' : List.Forall₂ (fun v p => p.length = lo.length ∧ Holds lo.length (passes p) v) x.1 ps := by
    rw [List.forall₂_iff_get] at g5 ⊢
    refine ⟨g5.1, fun i hi1 hi2 => ⟨?_, g5.2 i hi1 hi2⟩⟩
    obtain ⟨m, hm⟩ := g2 (ps.get ⟨i, hi2⟩) (List.get_mem _ _)
    rw [hm]
    exact drawPosition_length u lo hi hlen m
  obtain ⟨vs', v, ps', p, e1, e2, e3, e4⟩ := forall₂_snoc _ x.1 ps g5' hne
  have hlast : x.2 = p := by
    rw [e2, ← List.cons_append, List.getLast?_concat] at g4
    exact (Option.some.inj g4).symm
  obtain ⟨w, w1, w2⟩ := rest_of_passing lo.length n p e4.1 v e4.2
  refine ⟨front :: (vs' ++ [w]), ?_, (Vertex.drawPosition u 0 lo hi) :: ps, by simp [g1], ?_, ?_, g3⟩
  · simp only [f1, hx, bind, Except.bind, e1]
    rw [← List.cons_append, List.getLast?_concat]
    simp only [hlast, w1, List.dropLast_concat]
    rfl
  · rw [e2]
    exact goesThrough_ends lo.length n _ p ps' front w vs' hfl e4.1 f2 w2 e3
  · intro q hq
    rcases List.mem_cons.mp hq with rfl | hq
    · exact drawPosition_inBox u hu lo hi h4 0
    · obtain ⟨m, hm⟩ := g2 q hq
      rw [hm]
      exact drawPosition_inBox u hu lo hi h4 m

/-- C134: whatever is returned is what was promised. -/
theorem C134_returned (n : Int) (segments : ℕ) (lo hi : List ℝ) (u : ℕ → ℝ) (h : AcceptedBox n segments lo hi) (hu : Canonical u)
    (vs : List (Vertex ℝ)) (hr : Vertex.createRandomVertices n segments lo hi u = .ok vs) : RandomRoute n segments lo hi vs := by
  have hr' := hr
  rw [createRandomVertices_accepted n segments lo hi u h] at hr
  obtain ⟨front, f1, _⟩ := rest_of_new lo.length n (Vertex.drawPosition u 0 lo hi) (drawPosition_length u lo hi h.2.2.2.1.length_eq 0)
  cases hx : Vertex.randomLoop u lo hi segments lo.length (Vertex.drawPosition u 0 lo hi) with
  | error e => simp only [f1, hx, bind, Except.bind] at hr; cases hr
  | ok x =>
    obtain ⟨ws, w1, w2⟩ := random_from_loop n segments lo hi u h hu x hx
    rw [hr'] at w1
    rw [Except.ok.inj w1]
    exact w2

/-- C134: arguments outside the accepted ones are refused by a CHECK, or, with a lower bound above the upper one, undefined
behaviour. -/
theorem C134_refused (n : Int) (segments : ℕ) (lo hi : List ℝ) (u : ℕ → ℝ) (hs : segments < 2 ^ 31)
    (h : ¬ AcceptedBox n segments lo hi) :
    Vertex.createRandomVertices n segments lo hi u = .error .check ∨
      (Vertex.createRandomVertices n segments lo hi u = .error .ub ∧ ¬ List.Forall₂ (· ≤ ·) lo hi) := by
  unfold Vertex.createRandomVertices
  split_ifs with h1 h2 h3 h4 h5
  · exact Or.inl rfl
  · exact Or.inl rfl
  · exact Or.inl rfl
  · exact Or.inl rfl
  · refine absurd ⟨by omega, ?_, hs, h5, ?_⟩ h
    · rcases Nat.eq_zero_or_pos segments with rfl | hp
      · simp at h1
      · exact hp
    · rw [vnorm_pointDistance] at h3; exact not_lt.mp h3
  · exact Or.inr ⟨rfl, h5⟩

/-- C134, the part that holds: in a box with a diagonal above 0.4 the vertices promised are returned, for every generator that
reaches all corners. Missing: boxes with a diagonal from 0.2 to 0.4, for which it is false. -/
theorem C134_returns_partial (n : Int) (segments : ℕ) (lo hi : List ℝ) (u : ℕ → ℝ) (h : AcceptedBox n segments lo hi)
    (hu : Canonical u) (hc : ReachesCorners lo.length u) (hd : 2 / 5 < pointDistance lo hi) :
    ∃ vs, Vertex.createRandomVertices n segments lo hi u = .ok vs ∧ RandomRoute n segments lo hi vs := by
  obtain ⟨x, hx⟩ := randomLoop_total u hu lo hi h.2.2.2.1 hd hc segments lo.length (Vertex.drawPosition u 0 lo hi)
    (drawPosition_inBox u hu lo hi h.2.2.2.1 0)
  exact random_from_loop n segments lo hi u h hu x hx

/-- C134: if no point of the box is more than 0.2 from the first one drawn, the function never returns, whatever numbers follow. -/
theorem C134_never_returns (n : Int) (segments : ℕ) (lo hi : List ℝ) (u : ℕ → ℝ) (h : AcceptedBox n segments lo hi) (hu : Canonical u)
    (hp : ∀ p, InBox lo hi p → pointDistance (Vertex.drawPosition u 0 lo hi) p ≤ 1 / 5) :
    Vertex.createRandomVertices n segments lo hi u = .error .hang := by
  rw [createRandomVertices_accepted n segments lo hi u h]
  obtain ⟨front, f1, _⟩ := rest_of_new lo.length n (Vertex.drawPosition u 0 lo hi) (drawPosition_length u lo hi h.2.2.2.1.length_eq 0)
  obtain ⟨m, rfl⟩ : ∃ m, segments = m + 1 := ⟨segments - 1, by have := h.2.1; omega⟩
  have hx : Vertex.randomLoop u lo hi (m + 1) lo.length (Vertex.drawPosition u 0 lo hi) = .error .hang := by
    unfold Vertex.randomLoop
    rw [nextPosition_hang u hu lo hi h.2.2.2.1 lo.length _ hp]
    rfl
  simp only [f1, hx, bind, Except.bind]

/-- C134: a box with a diagonal of exactly 0.2 is accepted, but the function never returns, whatever the seed. -/
theorem C134_smallest_box (n : Int) (segments : ℕ) (lo hi : List ℝ) (u : ℕ → ℝ) (h : AcceptedBox n segments lo hi) (hu : Canonical u)
    (hd : pointDistance lo hi = 1 / 5) : Vertex.createRandomVertices n segments lo hi u = .error .hang :=
  C134_never_returns n segments lo hi u h hu (fun p hp => by
    rw [← hd]
    exact pointDistance_le_diag lo hi _ p (drawPosition_inBox u hu lo hi h.2.2.2.1 0) hp)

theorem pointDistance_one (a b : ℝ) : pointDistance [a] [b] = |a - b| := by
  simp [pointDistance, Real.sqrt_sq_eq_abs]

/-- C134: a box of side 0.3, more than 0.2; if the first number is one half the function never returns. -/
theorem C134_middle (n : Int) (segments : ℕ) (u : ℕ → ℝ) (hn : 0 < n) (h1 : 1 ≤ segments) (h2 : segments < 2 ^ 31)
    (hu : Canonical u) (h0 : u 0 = 1 / 2) : Vertex.createRandomVertices1D n segments 0 (3 / 10) u = .error .hang := by
  refine C134_never_returns n segments [0] [3 / 10] u
    ⟨hn, h1, h2, List.Forall₂.cons (by norm_num) List.Forall₂.nil, ?_⟩ hu ?_
  · rw [pointDistance_one]; norm_num [abs_of_neg]
  · rintro p ⟨p1, p2⟩
    cases p1 with
    | cons ha hr =>
      cases hr
      cases p2 with
      | cons hb _ =>
        simp only [Vertex.drawPosition, h0]
        rw [pointDistance_one, abs_le]
        constructor <;> linarith

/-- A sequence that comes close to both ends of the unit interval again and again. -/
noncomputable def swing (k : ℕ) : ℝ := if k % 2 = 0 then 0 else 1 - 1 / (k + 1)

theorem swing_canonical : Canonical swing := by
  intro k
  have hk : (0 : ℝ) ≤ k := Nat.cast_nonneg k
  unfold swing
  split_ifs with h
  · exact ⟨le_refl _, one_pos⟩
  · have h1 : (0 : ℝ) < 1 / (k + 1) := by positivity
    have h2 : 1 / ((k : ℝ) + 1) ≤ 1 := by rw [div_le_one (by positivity)]; linarith
    exact ⟨by linarith, by linarith⟩

theorem swing_corners : ReachesCorners 1 swing := by
  intro k c ε hε
  obtain ⟨m, hm⟩ := exists_nat_gt (1 / ε)
  by_cases hc : c 0 = true
  · refine ⟨2 * m + 1 + k, fun d hd => ?_⟩
    interval_cases d
    have e : k + (2 * m + 1 + k) * 1 + 0 = 2 * (m + k) + 1 := by ring
    rw [e, swing, if_neg (by omega), if_pos hc]
    have hpos : (0 : ℝ) < ((2 * (m + k) + 1 : ℕ) : ℝ) + 1 := by positivity
    have : (1 : ℝ) - 1 / (((2 * (m + k) + 1 : ℕ) : ℝ) + 1) - 1 = -(1 / (((2 * (m + k) + 1 : ℕ) : ℝ) + 1)) := by ring
    rw [this, abs_neg, abs_of_pos (by positivity), div_lt_iff₀ hpos]
    rw [div_lt_iff₀ hε] at hm
    have hmk : (m : ℝ) ≤ ((2 * (m + k) + 1 : ℕ) : ℝ) + 1 := by push_cast; have : (0 : ℝ) ≤ k := Nat.cast_nonneg k; have : (0 : ℝ) ≤ m := Nat.cast_nonneg m; linarith
    nlinarith
  · refine ⟨k, fun d hd => ?_⟩
    interval_cases d
    rw [swing, if_pos (by omega), if_neg hc]
    simpa using hε

/-- C134: the full claim is false. -/
theorem C134_refuted : ¬ C134_Full := by
  intro h
  have ha : AcceptedBox 4 3 [0] [1 / 5] := ⟨by norm_num, by norm_num, by norm_num,
    List.Forall₂.cons (by norm_num) List.Forall₂.nil, by rw [pointDistance_one]; norm_num [abs_of_neg]⟩
  obtain ⟨vs, h1, _⟩ := h 4 3 [0] [1 / 5] swing ha swing_canonical swing_corners
  rw [C134_smallest_box 4 3 [0] [1 / 5] swing ha swing_canonical (by rw [pointDistance_one]; norm_num [abs_of_neg])] at h1
  cases h1

/-- The hypotheses of `C134_returns_partial` are met: three segments between 0 and 1. -/
example : ∃ vs, Vertex.createRandomVertices1D 4 3 0 1 swing = .ok vs ∧ RandomRoute 4 3 [0] [1] vs :=
  C134_returns_partial 4 3 [0] [1] swing ⟨by norm_num, by norm_num, by norm_num,
    List.Forall₂.cons (by norm_num) List.Forall₂.nil, by rw [pointDistance_one]; norm_num⟩ swing_canonical swing_corners
    (by rw [pointDistance_one]; norm_num)

/-! ## C135: the vertices of a square -/

section Square
variable {K : Type*} [Field K] [LinearOrder K] [IsStrictOrderedRing K]

/-- C135: a square flown `rounds` times. There are `4 * rounds + 1` vertices, which go through the four corners in turn, beginning
and ending at rest at the first one. -/
theorem C135_square (n : Int) (cx cy cz side : K) (rounds : ℕ) (hr : 4 * rounds < 2 ^ 31) :
    ∃ vs, Vertex.createSquareVertices n cx cy cz side rounds = .ok vs ∧
      GoesThrough 3 n ((List.range (4 * rounds + 1)).map (squareCorner cx cy cz side)) vs := by
  obtain ⟨v1, a1, b1⟩ := position_holds 3 (squareCorner cx cy cz side 0) rfl
  obtain ⟨v2, a2, b2⟩ := position_holds 3 (squareCorner cx cy cz side 1) rfl
  obtain ⟨v3, a3, b3⟩ := position_holds 3 (squareCorner cx cy cz side 2) rfl
  obtain ⟨v4, a4, b4⟩ := position_holds 3 (squareCorner cx cy cz side 3) rfl
  obtain ⟨f, f1, f2⟩ := rest_of_passing 3 n (squareCorner cx cy cz side 0) rfl v1 b1
  have c0 : squareCorner cx cy cz side 0 = [cx - side / 2, cy - side / 2, cz] := rfl
  have c1 : squareCorner cx cy cz side 1 = [cx - side / 2, cy + side / 2, cz] := rfl
  have c2 : squareCorner cx cy cz side 2 = [cx + side / 2, cy + side / 2, cz] := rfl
  have c3 : squareCorner cx cy cz side 3 = [cx + side / 2, cy - side / 2, cz] := rfl
  have per : ∀ r i, squareCorner cx cy cz side (4 * r + i) = squareCorner cx cy cz side i := by
    intro r i
    unfold squareCorner
    have : (4 * r + i) % 4 = i % 4 := by omega
    rw [this]
  unfold Vertex.createSquareVertices
  rw [← c0, ← c1, ← c2, ← c3]
  simp only [a1, a2, a3, a4, f1, bind, Except.bind, pure, Except.pure]
  rw [if_neg (by omega), if_neg (by omega)]
  have mid : ∀ r, List.Forall₂ (fun v p => p.length = 3 ∧ Holds 3 (passes p) v) (List.replicate r [v2, v3, v4, v1]).flatten
      ((List.range (4 * r)).map fun i => squareCorner cx cy cz side (i + 1)) := by
    intro r
    induction r with
    | zero => exact List.Forall₂.nil
    | succ r ih =>
      rw [List.replicate_succ', List.flatten_append]
      have e : 4 * (r + 1) = 4 * r + 1 + 1 + 1 + 1 := by ring
      rw [e, List.range_succ, List.range_succ, List.range_succ, List.range_succ]
      simp only [List.map_append, List.append_assoc]
      refine List.rel_append ih ?_
      have p1 := per r 1
      have p2 := per r 2
      have p3 := per r 3
      have p4 := per r 4
      have p4' : squareCorner cx cy cz side 4 = squareCorner cx cy cz side 0 := rfl
      simp only [List.map_cons, List.map_nil, List.cons_append, List.nil_append, List.flatten_cons, List.flatten_nil, List.append_nil]
      refine List.Forall₂.cons ?_ (List.Forall₂.cons ?_ (List.Forall₂.cons ?_ (List.Forall₂.cons ?_ List.Forall₂.nil)))
      · rw [p1]; exact ⟨rfl, b2⟩
      · rw [show 4 * r + 1 + 1 = 4 * r + 2 from rfl, p2]; exact ⟨rfl, b3⟩
      · rw [show 4 * r + 1 + 1 + 1 = 4 * r + 3 from rfl, p3]; exact ⟨rfl, b4⟩
      · rw [show 4 * r + 1 + 1 + 1 + 1 = 4 * r + 4 from rfl, p4, p4']; exact ⟨rfl, b1⟩
  rcases Nat.eq_zero_or_pos rounds with rfl | hpos
  · obtain ⟨g, g1, g2⟩ := rest_of_rest 3 n (squareCorner cx cy cz side 0) rfl f f2
    refine ⟨[g], ?_, by simp, ?_⟩
    · simp [g1]
    · intro i p v hp hv
      have hi : i = 0 := by
        obtain ⟨h, _⟩ := List.getElem?_eq_some_iff.mp hv
        simpa using h
      subst hi
      simp only [Nat.mul_zero, Nat.zero_add, List.range_one, List.map_cons, List.map_nil, List.getElem?_cons_zero,
        Option.some.injEq] at hp hv
      subst hp; subst hv
      rw [if_pos (Or.inl rfl)]
      exact ⟨g2.1, rfl, g2.represents⟩
  · obtain ⟨m, rfl⟩ : ∃ m, rounds = m + 1 := ⟨rounds - 1, by omega⟩
    have hm := mid (m + 1)
    obtain ⟨vs', v, ps', p, e1, e2, e3, e4⟩ := forall₂_snoc _ _ _ hm (by simp)
    have hp : p = squareCorner cx cy cz side 0 := by
      have e : 4 * (m + 1) = 4 * m + 3 + 1 := by ring
      rw [e, List.range_succ, List.map_append] at e2
      have := congrArg List.getLast? e2
      simp only [List.map_cons, List.map_nil, List.getLast?_concat, Option.some.injEq] at this
      rw [← this, show 4 * m + 3 + 1 = 4 * m + 4 from rfl, per]
      rfl
    subst hp
    obtain ⟨w, w1, w2⟩ := rest_of_passing 3 n _ rfl v e4.2
    refine ⟨f :: (vs' ++ [w]), ?_, ?_⟩
    · rw [Int.toNat_natCast, e1, ← List.cons_append, List.getLast?_concat]
      simp only [w1, List.dropLast_concat]
      rfl
    · rw [List.range_succ_eq_map, List.map_cons, List.map_map]
      have : List.map (squareCorner cx cy cz side ∘ Nat.succ) (List.range (4 * (m + 1))) = ps' ++ [squareCorner cx cy cz side 0] := by
        rw [← e2]; rfl
      rw [this]
      exact goesThrough_ends 3 n _ _ ps' f w vs' rfl rfl f2 w2 e3

/-- C135: consecutive corners are one side apart, along one axis. -/
theorem C135_sides (cx cy cz side : K) (i : ℕ) :
    ∃ a b c a' b' : K, squareCorner cx cy cz side i = [a, b, c] ∧ squareCorner cx cy cz side (i + 1) = [a', b', c] ∧
      ((a' = a ∧ |b' - b| = |side|) ∨ (b' = b ∧ |a' - a| = |side|)) := by
  have h : i % 4 = 0 ∨ i % 4 = 1 ∨ i % 4 = 2 ∨ i % 4 = 3 := by omega
  have e1 : ∀ c : K, c + side / 2 - (c - side / 2) = side := fun c => by ring
  have e2 : ∀ c : K, c - side / 2 - (c + side / 2) = -side := fun c => by ring
  rcases h with h | h | h | h
  · have h' : (i + 1) % 4 = 1 := by omega
    refine ⟨_, _, _, _, _, by rw [squareCorner, if_pos h], by rw [squareCorner, if_neg (by omega), if_pos h'], Or.inl ⟨rfl, by rw [e1]⟩⟩
  · have h' : (i + 1) % 4 = 2 := by omega
    refine ⟨_, _, _, _, _, by rw [squareCorner, if_neg (by omega), if_pos h],
      by rw [squareCorner, if_neg (by omega), if_neg (by omega), if_pos h'], Or.inr ⟨rfl, by rw [e1]⟩⟩
  · have h' : (i + 1) % 4 = 3 := by omega
    refine ⟨_, _, _, _, _, by rw [squareCorner, if_neg (by omega), if_neg (by omega), if_pos h],
      by rw [squareCorner, if_neg (by omega), if_neg (by omega), if_neg (by omega)], Or.inl ⟨rfl, by rw [e2, abs_neg]⟩⟩
  · have h' : (i + 1) % 4 = 0 := by omega
    refine ⟨_, _, _, _, _, by rw [squareCorner, if_neg (by omega), if_neg (by omega), if_neg (by omega)],
      by rw [squareCorner, if_pos h'], Or.inr ⟨rfl, by rw [e2, abs_neg]⟩⟩

/-- C135: a negative number of rounds throws `std::length_error`. -/
theorem C135_negative (n : Int) (cx cy cz side : K) (rounds : Int) (h : rounds < 0) (hr : -2 ^ 31 ≤ 4 * rounds) :
    Vertex.createSquareVertices n cx cy cz side rounds = .error .exc := by
  obtain ⟨v1, a1, _⟩ := position_holds 3 (squareCorner cx cy cz side 0) rfl
  obtain ⟨v2, a2, _⟩ := position_holds 3 (squareCorner cx cy cz side 1) rfl
  obtain ⟨v3, a3, _⟩ := position_holds 3 (squareCorner cx cy cz side 2) rfl
  obtain ⟨v4, a4, _⟩ := position_holds 3 (squareCorner cx cy cz side 3) rfl
  have c0 : squareCorner cx cy cz side 0 = [cx - side / 2, cy - side / 2, cz] := rfl
  have c1 : squareCorner cx cy cz side 1 = [cx - side / 2, cy + side / 2, cz] := rfl
  have c2 : squareCorner cx cy cz side 2 = [cx + side / 2, cy + side / 2, cz] := rfl
  have c3 : squareCorner cx cy cz side 3 = [cx + side / 2, cy - side / 2, cz] := rfl
  unfold Vertex.createSquareVertices
  rw [← c0, ← c1, ← c2, ← c3]
  simp only [a1, a2, a3, a4, bind, Except.bind]
  rw [if_neg (by omega), if_pos h]

end Square

/-- A square of side 2 around the origin flown twice: nine vertices, at rest at the first and the ninth. -/
example : ∃ vs, Vertex.createSquareVertices 4 (0 : ℚ) 0 1 2 (2 : ℕ) = .ok vs ∧
    GoesThrough 3 4 [[-1, -1, 1], [-1, 1, 1], [1, 1, 1], [1, -1, 1], [-1, -1, 1], [-1, 1, 1], [1, 1, 1], [1, -1, 1], [-1, -1, 1]] vs := by
  obtain ⟨vs, h1, h2⟩ := C135_square 4 (0 : ℚ) 0 1 2 2 (by norm_num)
  refine ⟨vs, h1, ?_⟩
  have : (List.range (4 * 2 + 1)).map (squareCorner (0 : ℚ) 0 1 2) =
      [[-1, -1, 1], [-1, 1, 1], [1, 1, 1], [1, -1, 1], [-1, -1, 1], [-1, 1, 1], [1, 1, 1], [1, -1, 1], [-1, -1, 1]] := by
    decide +kernel
  rw [← this]; exact h2

end Verif.Properties
