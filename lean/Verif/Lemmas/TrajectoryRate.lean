import Verif.Spec.PlannerFloat
import Verif.Lemmas.Trajectory
import Verif.Lemmas.Extremum
import Mathlib.Analysis.Calculus.MeanValue
import Mathlib.Algebra.Order.CompleteField

/-!
# How fast a trajectory changes
-/

namespace Verif.Lemmas
open Verif Verif.Spec

set_option linter.unusedSectionVars false

variable {K : Type*} [Field K] [LinearOrder K] [IsStrictOrderedRing K] [FloorSemiring K]

/-- A polynomial whose derivative is bounded changes at most at that rate, over any Archimedean field. -/
theorem poly_rate (P : Polynomial K) (V σ τ : K) (h1 : σ ≤ τ) (hV : ∀ x, σ ≤ x → x < τ → |P.derivative.eval x| ≤ V) :
    |P.eval τ - P.eval σ| ≤ V * (τ - σ) := by
  have : Archimedean K := archimedean_iff_nat_lt.mpr fun x => ⟨⌊x⌋₊ + 1, by exact_mod_cast Nat.lt_floor_add_one x⟩
  let φ : K →+*o ℝ := ConditionallyCompleteLinearOrderedField.inducedOrderRingHom K ℝ
  have hmono : StrictMono φ := (OrderHomClass.mono φ).strictMono_of_injective (φ : K →+* ℝ).injective
  have habs : ∀ x : K, φ |x| = |φ x| := fun x => by
    rcases abs_cases x with ⟨e, h⟩ | ⟨e, h⟩
    · rw [e, abs_of_nonneg]; rw [← map_zero φ]; exact hmono.monotone h
    · rw [e, map_neg, abs_of_neg]; rw [← map_zero φ]; exact hmono h
  have hev : ∀ (Q : Polynomial K) (x : K), (Q.map (φ : K →+* ℝ)).eval (φ x) = φ (Q.eval x) := fun Q x => Polynomial.eval_map_apply (φ : K →+* ℝ) x
  have key := norm_image_sub_le_of_norm_deriv_le_segment' (f := fun y => (P.map (φ : K →+* ℝ)).eval y)
    (f' := fun y => ((P.map (φ : K →+* ℝ)).derivative).eval y) (C := φ V) (a := φ σ) (b := φ τ)
    (fun x _ => ((P.map (φ : K →+* ℝ)).hasDerivAt x).hasDerivWithinAt) (fun y hy => ?_) (φ τ) ⟨hmono.monotone h1, le_rfl⟩
  · rw [hev, hev, Real.norm_eq_abs, ← map_sub, ← habs, ← map_sub, ← map_mul] at key
    exact hmono.le_iff_le.mp key
  · by_contra hc
    push Not at hc
    have hcont : ContinuousAt (fun y => ‖(P.map (φ : K →+* ℝ)).derivative.eval y‖) y := (Polynomial.hasDerivAt _ y).continuousAt.norm
    have hev1 := (hcont.eventually (lt_mem_nhds hc)).filter_mono (nhdsWithin_le_nhds (s := Set.Ioi y))
    have hev2 := hev1.and (Ioo_mem_nhdsGT hy.2)
    obtain ⟨u, hu, hsub⟩ := (mem_nhdsGT_iff_exists_Ioo_subset).mp hev2
    obtain ⟨q, hq1, hq2⟩ := exists_rat_btwn (show y < u from hu)
    obtain ⟨hq3, hq4⟩ := hsub ⟨hq1, hq2⟩
    have hφq : φ (q : K) = (q : ℝ) := map_ratCast φ q
    rw [← hφq] at hq1 hq3 hq4
    rw [Polynomial.derivative_map, hev, Real.norm_eq_abs, ← habs] at hq3
    exact absurd (hV _ (hmono.le_iff_le.mp (hy.1.trans hq1.le)) (hmono.lt_iff_lt.mp hq4.2)) (not_le.mpr (hmono.lt_iff_lt.mp hq3))

/-- Every time of a trajectory lies in a segment, at the end of which `evaluate` may already be in the next one. -/
theorem locate (tr : Trajectory K) (hc : Consistent tr) (hne : tr.segments ≠ []) (hT : ∀ s ∈ tr.segments, 0 < s.time) (hR : ∀ s ∈ tr.segments, Regular s) (t : K)
    (h0 : 0 ≤ t) (h1 : t ≤ tr.maxTime) : ∃ j s τ, tr.segments[j]? = some s ∧ 0 ≤ τ ∧ τ ≤ s.time ∧ t = startOf tr.segments j + τ ∧
      ∀ k, tr.evaluate t k = .ok (segDeriv s k τ) := by
  rw [hc.1] at h1
  have hT' : ∀ s ∈ tr.segments, 0 ≤ s.time := fun s hs => (hT s hs).le
  rcases eq_or_lt_of_le h1 with he | hlt
  · obtain ⟨pre, s, hs⟩ : ∃ pre s, tr.segments = pre ++ [s] := ⟨_, _, (List.dropLast_append_getLast hne).symm⟩
    have hm : s ∈ tr.segments := by rw [hs]; simp
    have hj : tr.segments[pre.length]? = some s := by rw [hs]; simp
    refine ⟨pre.length, s, s.time, hj, hT' s hm, le_rfl, ?_, fun k => ?_⟩
    · rw [← startOf_succ _ _ _ hj, he, show pre.length + 1 = tr.segments.length by rw [hs]; simp, startOf_length]
    · rw [he]
      exact evaluate_end tr k pre s hs hT' (fun p hp => ((hR s hm).1 p hp).trans_le (hR s hm).2)
  · obtain ⟨j, s, hj, a, b⟩ := exists_segment tr.segments t h0 hlt
    refine ⟨j, s, t - startOf tr.segments j, hj, by linarith, by linarith, by ring, fun k => ?_⟩
    exact evaluate_inside tr t k j s hT' (fun p hp => ((hR s (List.mem_of_getElem? hj)).1 p hp).trans_le (hR s (List.mem_of_getElem? hj)).2) hj a b

theorem segDeriv_get {s : Segment K} {d : ℕ} {p : Poly K} (h : s.polys[d]? = some p) (k : ℕ) (τ : K) :
    (segDeriv s k τ)[d]? = some (derivAt p k τ) := by
  unfold segDeriv
  rw [List.getElem?_map, h]; rfl

section Rate

variable {tr : Trajectory K} (hc : Consistent tr) (hne : tr.segments ≠ []) (hT : ∀ s ∈ tr.segments, 0 < s.time)
  (hR : ∀ s ∈ tr.segments, Regular s) {k : ℕ} {V : K} (hV : RateBound (k + 1) tr V)
include hc hT hR hV

/-- Within a segment. -/
theorem rate_within {j : ℕ} {s : Segment K} (hj : tr.segments[j]? = some s) {d : ℕ} {p : Poly K} (hp : s.polys[d]? = some p) {σ τ : K} (h0 : 0 ≤ σ)
    (h1 : σ ≤ τ) (h2 : τ ≤ s.time) : |derivAt p k τ - derivAt p k σ| ≤ V * (τ - σ) := by
  have hs := List.mem_of_getElem? hj
  have hT' : ∀ s ∈ tr.segments, 0 ≤ s.time := fun s hs => (hT s hs).le
  refine poly_rate _ V σ τ h1 fun x hx1 hx2 => ?_
  rw [← Function.iterate_succ_apply' (Polynomial.derivative)]
  have hst : 0 ≤ startOf tr.segments j := duration_nonneg _ fun x hx => hT' x (List.mem_of_mem_take hx)
  have hjl := (List.getElem?_eq_some_iff.mp hj).1
  have hend : startOf tr.segments j + s.time ≤ tr.maxTime := by
    rw [hc.1, ← startOf_succ _ _ _ hj, ← startOf_length]
    rcases eq_or_lt_of_le (show j + 1 ≤ tr.segments.length from hjl) with e | e
    · rw [e]
    · exact (startOf_lt _ hT _ _ e le_rfl).le
  have hx3 : x < s.time := hx2.trans_le h2
  have hx0 : 0 ≤ x := h0.trans hx1
  have he := evaluate_inside tr (startOf tr.segments j + x) (k + 1) j s hT' (fun p hp => ((hR s hs).1 p hp).trans_le (hR s hs).2) hj
    (by linarith) (by linarith)
  rw [add_sub_cancel_left] at he
  exact hV _ (by linarith) (by linarith) _ he _ (List.mem_of_getElem? (segDeriv_get hp (k + 1) x))

/-- Across segments. -/
theorem rate_across (hjo : PiecesMeet k tr) {i : ℕ} {s : Segment K} (hi : tr.segments[i]? = some s) {d : ℕ} {p : Poly K} (hp : s.polys[d]? = some p) {σ : K}
    (h0 : 0 ≤ σ) (h1 : σ ≤ s.time) (n : ℕ) :
    ∀ (s' : Segment K) (q : Poly K) (τ : K), tr.segments[i + n]? = some s' → s'.polys[d]? = some q → 0 ≤ τ → τ ≤ s'.time → (n = 0 → σ ≤ τ) →
      |derivAt q k τ - derivAt p k σ| ≤ V * (startOf tr.segments (i + n) + τ - (startOf tr.segments i + σ)) := by
  induction n with
  | zero =>
    intro s' q τ hs' hq h2 h3 h4
    rw [Nat.add_zero, hi] at hs'
    obtain rfl := Option.some.inj hs'
    rw [hp] at hq
    obtain rfl := Option.some.inj hq
    refine (rate_within hc hT hR hV hi hp h0 (h4 rfl) h3).trans_eq ?_
    rw [Nat.add_zero]; ring
  | succ n ih =>
    intro s' q τ hs' hq h2 h3 _
    obtain ⟨m, hm⟩ : ∃ m, tr.segments[i + n]? = some m := by
      have := (List.getElem?_eq_some_iff.mp hs').1
      exact ⟨_, List.getElem?_eq_getElem (by omega)⟩
    have hms := List.mem_of_getElem? hm
    obtain ⟨pm, hpm⟩ : ∃ pm, m.polys[d]? = some pm := by
      have h5 := (List.getElem?_eq_some_iff.mp hq).1
      rw [(hc.2 s' (List.mem_of_getElem? hs')).1] at h5
      exact ⟨_, List.getElem?_eq_getElem (by rw [(hc.2 m hms).1]; exact h5)⟩
    have hj := congrArg (fun l => l[d]?) (hjo (i + n) m s' hm (by rw [← hs']; rfl))
    simp only [segDeriv_get hpm, segDeriv_get hq] at hj
    have hj := Option.some.inj hj
    have e1 := ih m pm m.time hm hpm (hT m hms).le le_rfl (fun hn => by subst hn; rw [Nat.add_zero, hi] at hm; rw [← Option.some.inj hm]; exact h1)
    have e2 := rate_within hc hT hR hV hs' hq le_rfl h2 h3
    have e3 := startOf_succ _ _ _ hm
    rw [show i + (n + 1) = i + n + 1 from rfl, e3]
    have : derivAt q k τ - derivAt p k σ = (derivAt q k τ - derivAt q k 0) + (derivAt pm k m.time - derivAt p k σ) := by rw [hj]; ring
    rw [this]
    refine (abs_add_le _ _).trans ((add_le_add e2 e1).trans_eq ?_)
    ring

include hne in
/-- The change between two times. -/
theorem rate_between (hjo : PiecesMeet k tr) {a b : K} (ha : 0 ≤ a) (hab : a ≤ b) (hb : b ≤ tr.maxTime) {va vb : List K} (h1 : tr.evaluate a k = .ok va)
    (h2 : tr.evaluate b k = .ok vb) (d : ℕ) (x y : K) (hx : va[d]? = some x) (hy : vb[d]? = some y) : |y - x| ≤ V * (b - a) := by
  rcases eq_or_lt_of_le hab with rfl | hab'
  · rw [h1] at h2
    rw [← Except.ok.inj h2, hx] at hy
    rw [Option.some.inj hy, sub_self, sub_self, mul_zero, abs_zero]
  obtain ⟨i, s, σ, hi, i0, i1, ea, ev1⟩ := locate tr hc hne hT hR a ha (hab.trans hb)
  obtain ⟨j, s', τ, hj, j0, j1, eb, ev2⟩ := locate tr hc hne hT hR b (ha.trans hab) hb
  rw [ev1] at h1
  rw [ev2] at h2
  rw [← Except.ok.inj h1] at hx
  rw [← Except.ok.inj h2] at hy
  have hp : ∃ p, s.polys[d]? = some p ∧ x = derivAt p k σ := by
    unfold segDeriv at hx
    rw [List.getElem?_map] at hx
    obtain ⟨p, hp, e⟩ := Option.map_eq_some_iff.mp hx
    exact ⟨p, hp, e.symm⟩
  have hq : ∃ q, s'.polys[d]? = some q ∧ y = derivAt q k τ := by
    unfold segDeriv at hy
    rw [List.getElem?_map] at hy
    obtain ⟨p, hp, e⟩ := Option.map_eq_some_iff.mp hy
    exact ⟨p, hp, e.symm⟩
  obtain ⟨p, hp, rfl⟩ := hp
  obtain ⟨q, hq, rfl⟩ := hq
  rcases lt_trichotomy i j with hij | rfl | hij
  · obtain ⟨n, rfl⟩ := Nat.exists_eq_add_of_le hij.le
    refine (rate_across hc hT hR hV hjo hi hp i0 i1 n s' q τ hj hq j0 j1 (fun h => by omega)).trans_eq ?_
    rw [ea, eb]
  · rw [hi] at hj
    obtain rfl := Option.some.inj hj
    rw [hp] at hq
    obtain rfl := Option.some.inj hq
    refine (rate_within hc hT hR hV hi hp i0 (by linarith) j1).trans_eq ?_
    rw [ea, eb]; ring
  · exfalso
    have hl := (List.getElem?_eq_some_iff.mp hi).1
    have := startOf_succ _ _ _ hj
    rcases eq_or_lt_of_le (show j + 1 ≤ i from hij) with e | e
    · rw [← e] at ea
      linarith
    · have := startOf_lt tr.segments hT _ _ e hl.le
      linarith

end Rate

theorem poly_bounded (P : Polynomial K) (T : K) : ∃ V, ∀ x, 0 ≤ x → x ≤ T → |P.eval x| ≤ V := by
  refine ⟨∑ i ∈ Finset.range (P.natDegree + 1), |P.coeff i| * T ^ i, fun x h0 h1 => ?_⟩
  rw [Polynomial.eval_eq_sum_range]
  refine (Finset.abs_sum_le_sum_abs _ _).trans (Finset.sum_le_sum fun i _ => ?_)
  rw [abs_mul, abs_pow, abs_of_nonneg h0]
  gcongr

theorem list_bounded {α : Type*} (l : List α) (f : α → K → Prop) (hm : ∀ a V W, V ≤ W → f a V → f a W) (h : ∀ a ∈ l, ∃ V, f a V) :
    ∃ V, ∀ a ∈ l, f a V := by
  induction l with
  | nil => exact ⟨0, fun a ha => absurd ha (by simp)⟩
  | cons a l ih =>
    obtain ⟨V, hV⟩ := h a (by simp)
    obtain ⟨W, hW⟩ := ih fun b hb => h b (by simp [hb])
    refine ⟨max V W, fun b hb => ?_⟩
    rcases List.mem_cons.mp hb with rfl | hb
    · exact hm _ _ _ (le_max_left _ _) hV
    · exact hm _ _ _ (le_max_right _ _) (hW b hb)

/-- Every derivative of a trajectory is bounded. -/
theorem rateBound_exists (tr : Trajectory K) (hc : Consistent tr) (hne : tr.segments ≠ []) (hT : ∀ s ∈ tr.segments, 0 < s.time)
    (hR : ∀ s ∈ tr.segments, Regular s) (k : ℕ) : ∃ V, RateBound k tr V := by
  have hp : ∃ V, ∀ s ∈ tr.segments, ∀ p ∈ s.polys, ∀ x, 0 ≤ x → x ≤ s.time → |derivAt p k x| ≤ V := by
    refine list_bounded _ (fun (s : Segment K) V => ∀ p ∈ s.polys, ∀ x, 0 ≤ x → x ≤ s.time → |derivAt p k x| ≤ V)
      (fun a V W h h' p hp x h0 h1 => (h' p hp x h0 h1).trans h) fun s _ => ?_
    exact list_bounded _ (fun (p : Poly K) V => ∀ x, 0 ≤ x → x ≤ s.time → |derivAt p k x| ≤ V)
      (fun a V W h h' x h0 h1 => (h' x h0 h1).trans h) fun p _ => poly_bounded _ s.time
  obtain ⟨V, hV⟩ := hp
  refine ⟨V, fun t h0 h1 v hv x hx => ?_⟩
  obtain ⟨j, s, τ, hj, a, b, _, he⟩ := locate tr hc hne hT hR t h0 h1
  rw [he k] at hv
  rw [← Except.ok.inj hv] at hx
  obtain ⟨p, hp, rfl⟩ := List.mem_map.mp hx
  exact hV s (List.mem_of_getElem? hj) p hp τ a b

end Verif.Lemmas
