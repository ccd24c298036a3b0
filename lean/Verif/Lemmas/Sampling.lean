import Verif.Properties.Range
import Verif.Properties.MavMsgs
import Verif.Model.Sampling
import Verif.Spec.Sampling

/-!
# Lemmas for sampling
-/

namespace Verif.Sampling

open Spec Mav

theorem head3_ok (l : List ℝ) (h : 3 ≤ l.length) : ∃ v : V3, head3 l = .ok v ∧ ∀ i : Fin 3, l[(i : ℕ)]? = some (v i) := by
  match l, h with
  | a :: b :: c :: r, _ => exact ⟨![a, b, c], rfl, fun i => by fin_cases i <;> rfl⟩

theorem tail3_ok (l : List ℝ) (h : l.length = 6) :
    ∃ v : V3, tail3 l = .ok v ∧ ∀ i : Fin 3, l[3 + (i : ℕ)]? = some (v i) := by
  match l, h with
  | [a, b, c, d, e, f], _ => exact ⟨![d, e, f], rfl, fun i => by fin_cases i <;> rfl⟩

theorem toInt64_ok (t : ℝ) (h0 : 0 ≤ t) (h1 : t ≤ 9000000000) : toInt64 (t * 1000000000) = .ok ⌊t * 1000000000⌋ := by
  have hp : 0 ≤ t * 1000000000 := by positivity
  have hf : 0 ≤ ⌊t * 1000000000⌋ := Int.floor_nonneg.2 hp
  have hl : (⌊t * 1000000000⌋ : ℝ) ≤ t * 1000000000 := Int.floor_le _
  have hlt : ⌊t * 1000000000⌋ < 2 ^ 63 := by
    have : (⌊t * 1000000000⌋ : ℝ) < ((2 ^ 63 : ℤ) : ℝ) := by push_cast; linarith
    exact_mod_cast this
  unfold toInt64 truncate
  rw [if_pos hp, if_pos ⟨by linarith, hlt⟩]

/-- Writing one state. -/
theorem writeState_ok (D : ℕ) (t : ℝ) (v : ℕ → List ℝ) (hl : ∀ k, (v k).length = D) (hD : 3 ≤ D) (old : TrajectoryPoint) :
    ∃ st, writeState D (v 0) (v 1) (v 2) (v 3) (v 4) old = .ok st ∧
      Sample D t v old { st with timeFromStartNs := ⌊t * 1000000000⌋ } := by
  obtain ⟨p, hp, hp'⟩ := head3_ok (v 0) (by rw [hl]; exact hD)
  obtain ⟨w, hw, hw'⟩ := head3_ok (v 1) (by rw [hl]; exact hD)
  obtain ⟨a, ha, ha'⟩ := head3_ok (v 2) (by rw [hl]; exact hD)
  obtain ⟨j, hj, hj'⟩ := head3_ok (v 3) (by rw [hl]; exact hD)
  obtain ⟨s, hs, hs'⟩ := head3_ok (v 4) (by rw [hl]; exact hD)
  unfold writeState
  simp only [hp, hw, ha, hj, hs, bind, Except.bind, pure, Except.pure]
  by_cases h4 : D = 4
  · have g (k : ℕ) : ∃ x, (v k)[3]? = some x := ⟨_, List.getElem?_eq_getElem (by rw [hl]; omega)⟩
    obtain ⟨y, hy⟩ := g 0
    obtain ⟨r, hr⟩ := g 1
    obtain ⟨b, hb⟩ := g 2
    rw [if_pos h4]
    simp only [at?, hy, hr, hb]
    refine ⟨_, rfl, ⟨hp', hw', ha', hj', hs', rfl, rfl, ?_, ?_, ?_⟩⟩
    · intro _
      exact ⟨y, r, b, hy, hr, hb, yaw_unit y, yaw_matrix y, rfl, rfl, rfl⟩
    · intro h; omega
    · intro h; exact absurd h4 h
  · rw [if_neg h4]
    by_cases h6 : D = 6
    · obtain ⟨r, hr, hr'⟩ := tail3_ok (v 0) (by rw [hl]; exact h6)
      obtain ⟨q, hq, hq'⟩ := tail3_ok (v 1) (by rw [hl]; exact h6)
      obtain ⟨u, hu, hu'⟩ := tail3_ok (v 2) (by rw [hl]; exact h6)
      rw [if_pos h6]
      simp only [hr, hq, hu]
      have hm := quatOfMatrix_spec (matrix_rotation r)
      refine ⟨_, rfl, ⟨hp', hw', ha', hj', hs', rfl, rfl, fun h => absurd h h4, ?_, fun _ h => absurd h6 h⟩⟩
      intro _
      exact ⟨r, q, u, hr', hq', hu', hm.1, hm.2, rfl, rfl, rfl⟩
    · rw [if_neg h6]
      exact ⟨_, rfl, ⟨hp', hw', ha', hj', hs', rfl, rfl, fun h => absurd h h4, fun h => absurd h h6,
        fun _ _ => ⟨rfl, rfl, rfl, rfl⟩⟩⟩

theorem flat_ok (D : ℕ) (evaluate : ℝ → ℕ → Res (List ℝ)) (t : ℝ) (v : ℕ → List ℝ) (he : ∀ k, evaluate t k = .ok (v k))
    (hl : ∀ k, (v k).length = D) (hD : 3 ≤ D) (h0 : 0 ≤ t) (h1 : t ≤ 9000000000) (old : TrajectoryPoint) :
    ∃ st, sampleFlatStateAtTime D evaluate t old = .ok (true, st) ∧ Sample D t v old st := by
  obtain ⟨st, hst, hs⟩ := writeState_ok D t v hl hD old
  refine ⟨_, ?_, hs⟩
  unfold sampleFlatStateAtTime
  rw [if_neg (by omega)]
  simp only [he, bind, Except.bind, hst, toInt64_ok t h0 h1, pure, Except.pure]

/-- Evaluation of a consistent, non-empty trajectory never fails inside it, and gives `D` values. -/
theorem evaluate_total (tr : Trajectory ℝ) (hc : Consistent tr) (hne : tr.segments ≠ []) (hT : ∀ s ∈ tr.segments, 0 ≤ s.time)
    (hR : ∀ s ∈ tr.segments, Regular s) (t : ℝ) (h0 : 0 ≤ t) (h1 : t ≤ tr.maxTime) :
    ∃ v : ℕ → List ℝ, (∀ k, tr.evaluate t k = .ok (v k)) ∧ ∀ k, (v k).length = tr.D := by
  rw [hc.1] at h1
  have len (s : Segment ℝ) (hs : s ∈ tr.segments) (k : ℕ) (x : ℝ) : (segDeriv s k x).length = tr.D := by
    unfold segDeriv
    rw [List.length_map, (hc.2 s hs).1]
  rcases lt_or_eq_of_le h1 with hlt | heq
  · obtain ⟨j, s, hj, ha, hb⟩ := exists_segment tr.segments t h0 hlt
    have hm := List.mem_of_getElem? hj
    exact ⟨fun k => segDeriv s k (t - startOf tr.segments j), fun k => evaluate_inside tr t k j s hT (hR s hm).le hj ha hb,
      fun k => len s hm k _⟩
  · obtain ⟨s, hs⟩ : ∃ s, tr.segments.getLast? = some s := ⟨_, List.getLast?_eq_some_getLast hne⟩
    obtain ⟨pre, hpre⟩ := List.getLast?_eq_some_iff.mp hs
    have hm : s ∈ tr.segments := by rw [hpre]; simp
    refine ⟨fun k => segDeriv s k s.time, fun k => ?_, fun k => len s hm k _⟩
    rw [heq]
    exact evaluate_end tr k pre s hpre hT (hR s hm).le

variable {K : Type*} [Field K] [LinearOrder K] [IsStrictOrderedRing K]

/-- The sampling loop takes the same segments and local times for every order of derivative. -/
theorem rangeLoop_path (segs : List (Segment K)) (hT : ∀ s ∈ segs, 0 ≤ s.time) (hR : ∀ s ∈ segs, Regular s) (tEnd dt : K)
    (hdt : 0 < dt) (fuel : ℕ) :
    ∀ (M : ℕ) (acc : K) (i : ℕ) (tau : K), i < segs.length → 0 ≤ tau → tEnd ≤ acc + M * dt → M + (segs.length - i) ≤ fuel →
      ∃ path : List (K × Segment K × K), (∀ k out, Trajectory.rangeLoop segs tEnd dt k fuel acc i tau out =
          .ok (out ++ path.map fun x => (x.1, segDeriv x.2.1 k x.2.2))) ∧
        (∀ n : ℕ, n < path.length ↔ (acc + n * dt < tEnd ∧ startOf segs i + tau + n * dt ≤ duration segs)) ∧
        ∀ (n : ℕ) (x : K × Segment K × K), path[n]? = some x → x.1 = acc + n * dt ∧
          ∃ j, segs[j]? = some x.2.1 ∧ x.2.2 = startOf segs i + tau + n * dt - startOf segs j ∧ 0 ≤ x.2.2 ∧ x.2.2 ≤ x.2.1.time := by
  induction fuel with
  | zero => intro M acc i tau hi; omega
  | succ fuel ih =>
    intro M acc i tau hi htau hM hfuel
    have hs : segs[i]? = some segs[i] := List.getElem?_eq_getElem hi
    have hmem : segs[i] ∈ segs := List.getElem_mem hi
    by_cases hacc : acc < tEnd
    · by_cases ht : tau > segs[i].time
      · by_cases hlast : segs.length ≤ i + 1
        · refine ⟨[], ?_, ?_, by simp⟩
          · intro k out
            unfold Trajectory.rangeLoop
            rw [if_pos hacc]
            simp only [at?, hs, bind, Except.bind]
            rw [if_pos ht, if_pos hlast]
            simp [pure, Except.pure]
          intro n
          have hd : duration segs = startOf segs i + segs[i].time := by
            rw [← startOf_succ segs i _ hs, show i + 1 = segs.length by omega, startOf_length]
          have h0 : (0 : K) ≤ n * dt := by positivity
          simp only [List.length_nil, not_lt_zero, false_iff, not_and, not_le]
          intro _
          rw [hd]; linarith
        · obtain ⟨new, h1, h2, h3⟩ := ih M acc (i + 1) (tau - segs[i].time) (by omega) (by linarith) hM (by omega)
          have e : startOf segs (i + 1) + (tau - segs[i].time) = startOf segs i + tau := by
            rw [startOf_succ segs i _ hs]; ring
          rw [e] at h2 h3
          refine ⟨new, ?_, h2, h3⟩
          intro k out
          unfold Trajectory.rangeLoop
          rw [if_pos hacc]
          simp only [at?, hs, bind, Except.bind]
          rw [if_pos ht, if_neg hlast, h1]
      · have hMpos : 0 < M := by
          rcases Nat.eq_zero_or_pos M with h | h
          · subst h; simp at hM; exact absurd hacc (not_lt.mpr hM)
          · exact h
        obtain ⟨M', rfl⟩ : ∃ M', M = M' + 1 := ⟨M - 1, by omega⟩
        obtain ⟨new, h1, h2, h3⟩ := ih M' (acc + dt) i (tau + dt) hi (by linarith)
          (by push_cast at hM; linarith) (by omega)
        refine ⟨(acc, segs[i], tau) :: new, ?_, ?_, ?_⟩
        · intro k out
          unfold Trajectory.rangeLoop
          rw [if_pos hacc]
          simp only [at?, hs, bind, Except.bind]
          rw [if_neg ht, segment_evaluate_eq _ _ _ (hR _ hmem).le]
          simp only
          rw [h1]
          simp
        · intro n
          cases n with
          | zero =>
            simp only [List.length_cons, Nat.zero_lt_succ, Nat.cast_zero, zero_mul, add_zero, true_iff]
            refine ⟨hacc, ?_⟩
            have := Properties.duration_drop_nonneg segs hT (i + 1)
            rw [startOf_succ segs i _ hs] at this
            linarith
          | succ n =>
            have := h2 n
            simp only [List.length_cons, Nat.succ_lt_succ_iff]
            rw [this]
            push_cast
            rw [show acc + dt + n * dt = acc + (n + 1) * dt by ring,
              show startOf segs i + (tau + dt) + n * dt = startOf segs i + tau + (n + 1) * dt by ring]
        · intro n x hx
          cases n with
          | zero =>
            simp only [List.getElem?_cons_zero, Option.some.injEq] at hx
            subst hx
            exact ⟨by simp, i, hs, by simp, htau, not_lt.mp ht⟩
          | succ n =>
            obtain ⟨g1, j, gj, g2, g3⟩ := h3 n x (by simpa using hx)
            push_cast
            refine ⟨by rw [g1]; ring, j, gj, ?_, g3⟩
            rw [g2]; ring
    · refine ⟨[], ?_, ?_, by simp⟩
      · intro k out
        unfold Trajectory.rangeLoop
        rw [if_neg hacc]
        simp
      intro n
      have h0 : (0 : K) ≤ n * dt := by positivity
      simp only [List.length_nil, not_lt_zero, false_iff, not_and]
      intro h
      linarith

theorem mapM_range_ok {α : Type*} (n : ℕ) (f : ℕ → Res α) (g : ℕ → α) (h : ∀ i < n, f i = .ok (g i)) :
    (List.range n).mapM f = .ok ((List.range n).map g) :=
  mapM_ok _ _ _ fun i hi => h i (List.mem_range.1 hi)

/-- The whole range: `n`-th state. -/
theorem range_ok (tr : Trajectory ℝ) (hc : Consistent tr) (hT : ∀ s ∈ tr.segments, 0 ≤ s.time)
    (hR : ∀ s ∈ tr.segments, Regular s) (hD : 3 ≤ tr.D) (hmax : tr.maxTime ≤ 9000000000) (tMin tMax dt : ℝ) (h0 : 0 ≤ tMin)
    (hle : tMax ≤ tr.maxTime) (hdt : 0 < dt) (hcast : -1 < (tMax - tMin) / dt + 1) (j : ℕ) (s : Segment ℝ)
    (hj : tr.segments[j]? = some s) (h1 : startOf tr.segments j ≤ tMin) (h2 : tMin < startOf tr.segments j + s.time)
    (states : List TrajectoryPoint) :
    ∃ (new : List TrajectoryPoint) (fuel₀ : ℕ),
      (∀ fuel ≥ fuel₀, sampleTrajectoryInRange fuel tr tMin tMax dt states = .ok (true, new)) ∧
      (∀ n : ℕ, n < new.length ↔ (startOf tr.segments j + n * dt < tMax ∧ tMin + n * dt ≤ tr.maxTime)) ∧
      ∀ (n : ℕ) (st : TrajectoryPoint), new[n]? = some st → ∃ (i : ℕ) (sg : Segment ℝ), tr.segments[i]? = some sg ∧
        startOf tr.segments i ≤ tMin + n * dt ∧ tMin + n * dt ≤ startOf tr.segments i + sg.time ∧
        Sample tr.D (tMin + n * dt) (fun k => segDeriv sg k (tMin + n * dt - startOf tr.segments i)) (states.getD n {}) st := by
  obtain ⟨M, hM⟩ := Archimedean.arch (tMax - startOf tr.segments j) hdt
  rw [nsmul_eq_mul] at hM
  have hjl := (List.getElem?_eq_some_iff.mp hj).1
  have hspec := fun fuel (hf : M + (tr.segments.length - j) ≤ fuel) =>
    rangeLoop_path tr.segments hT hR tMax dt hdt fuel M (startOf tr.segments j) j (tMin - startOf tr.segments j)
      hjl (by linarith) (by linarith) hf
  have e : ∀ x : ℝ, startOf tr.segments j + (tMin - startOf tr.segments j) + x = tMin + x := by intro x; ring
  simp only [e] at hspec
  -- every sufficient fuel gives the same samples
  have hdet : ∀ fuel (hf : M + (tr.segments.length - j) ≤ fuel), ∃ new,
      sampleTrajectoryInRange fuel tr tMin tMax dt states = .ok (true, new) ∧
      (∀ n : ℕ, n < new.length ↔ (startOf tr.segments j + n * dt < tMax ∧ tMin + n * dt ≤ tr.maxTime)) ∧
      ∀ (n : ℕ) (st : TrajectoryPoint), new[n]? = some st → ∃ (i : ℕ) (sg : Segment ℝ), tr.segments[i]? = some sg ∧
        startOf tr.segments i ≤ tMin + n * dt ∧ tMin + n * dt ≤ startOf tr.segments i + sg.time ∧
        Sample tr.D (tMin + n * dt) (fun k => segDeriv sg k (tMin + n * dt - startOf tr.segments i)) (states.getD n {}) st := by
    intro fuel hf
    obtain ⟨path, g1, g2, g3⟩ := hspec fuel hf
    have hev (k : ℕ) : tr.evaluateRange fuel tMin tMax dt k = .ok (path.map fun x => (x.1, segDeriv x.2.1 k x.2.2)) := by
      rw [Properties.evaluateRange_start tr tMin tMax dt k fuel j s hT hdt.ne' hcast hj h1 h2, g1]
      simp
    have hw : ∀ i : ℕ, i < path.length → ∃ st, (∃ (a : ℕ) (sg : Segment ℝ), tr.segments[a]? = some sg ∧
        startOf tr.segments a ≤ tMin + i * dt ∧ tMin + i * dt ≤ startOf tr.segments a + sg.time ∧
        Sample tr.D (tMin + i * dt) (fun k => segDeriv sg k (tMin + i * dt - startOf tr.segments a)) (states.getD i {}) st) ∧
        (do
          let p ← at? (path.map fun x => (x.1, segDeriv x.2.1 0 x.2.2)) i
          let v ← at? (path.map fun x => (x.1, segDeriv x.2.1 1 x.2.2)) i
          let a ← at? (path.map fun x => (x.1, segDeriv x.2.1 2 x.2.2)) i
          let j ← at? (path.map fun x => (x.1, segDeriv x.2.1 3 x.2.2)) i
          let s ← at? (path.map fun x => (x.1, segDeriv x.2.1 4 x.2.2)) i
          let state ← writeState tr.D p.2 v.2 a.2 j.2 s.2 (states.getD i {})
          let ns ← toInt64 ((tMin + dt * i) * 1000000000)
          return { state with timeFromStartNs := ns } : Res TrajectoryPoint) = .ok st := by
      intro i hi
      have hx : path[i]? = some path[i] := List.getElem?_eq_getElem hi
      obtain ⟨-, a, ha, htau, hp0, hp1⟩ := g3 i _ hx
      have hlast := ((g2 i).1 hi).2
      rw [← hc.1] at hlast
      have hlen (k : ℕ) : (segDeriv path[i].2.1 k path[i].2.2).length = tr.D := by
        unfold segDeriv
        rw [List.length_map, (hc.2 _ (List.mem_of_getElem? ha)).1]
      have hpos : 0 ≤ tMin + i * dt := by positivity
      obtain ⟨st, hst, hsam⟩ := writeState_ok tr.D (tMin + i * dt) (fun k => segDeriv path[i].2.1 k path[i].2.2) hlen hD
        (states.getD i {})
      refine ⟨{ st with timeFromStartNs := ⌊(tMin + i * dt) * 1000000000⌋ }, ⟨a, path[i].2.1, ha, ?_, ?_, ?_⟩, ?_⟩
      · rw [htau] at hp0; linarith
      · rw [htau] at hp1; linarith
      · rw [htau] at hsam
        exact hsam
      · simp only [at?, List.getElem?_map, hx, Option.map_some, bind, Except.bind]
        rw [hst]
        simp only
        rw [show tMin + dt * (i : ℝ) = tMin + i * dt by ring, toInt64_ok _ hpos (by linarith)]
        rfl
    have : Nonempty TrajectoryPoint := ⟨{}⟩
    choose! f hf1 hf2 using hw
    refine ⟨(List.range path.length).map f, ?_, ?_, ?_⟩
    · unfold sampleTrajectoryInRange
      rw [if_neg (by push Not; exact ⟨h0, hle⟩), if_neg (by omega)]
      simp only [hev, bind, Except.bind]
      have hm := mapM_range_ok path.length _ f hf2
      simp only [bind, Except.bind] at hm
      rw [List.length_map, hm]
      rfl
    · intro n
      rw [List.length_map, List.length_range, g2, hc.1]
    · intro n st hn
      rw [List.getElem?_map] at hn
      have hl : n < path.length := by
        by_contra hge
        rw [List.getElem?_eq_none (by rw [List.length_range]; omega)] at hn
        simp at hn
      rw [List.getElem?_range hl] at hn
      simp only [Option.map_some, Option.some.injEq] at hn
      rw [← hn]
      exact hf1 n hl
  obtain ⟨new, a1, a2, a3⟩ := hdet _ (le_refl _)
  refine ⟨new, M + (tr.segments.length - j), ?_, a2, a3⟩
  intro fuel hf
  obtain ⟨path, g1, -, -⟩ := hspec _ (le_refl _)
  obtain ⟨d, rfl⟩ := Nat.exists_eq_add_of_le hf
  have hk (k : ℕ) : tr.evaluateRange (M + (tr.segments.length - j) + d) tMin tMax dt k =
      tr.evaluateRange (M + (tr.segments.length - j)) tMin tMax dt k := by
    rw [Properties.evaluateRange_start tr tMin tMax dt k _ j s hT hdt.ne' hcast hj h1 h2,
      Properties.evaluateRange_start tr tMin tMax dt k _ j s hT hdt.ne' hcast hj h1 h2,
      Properties.rangeLoop_mono tr.segments tMax dt k _ d _ _ _ _ _ (g1 k []), g1]
  have : sampleTrajectoryInRange (M + (tr.segments.length - j) + d) tr tMin tMax dt states =
      sampleTrajectoryInRange (M + (tr.segments.length - j)) tr tMin tMax dt states := by
    unfold sampleTrajectoryInRange
    simp only [hk]
  rw [this, a1]

end Verif.Sampling
