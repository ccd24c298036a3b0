import Mathlib.Algebra.Order.Archimedean.Basic
import Mathlib.Algebra.Order.Archimedean.Real.Basic
import Verif.Properties.Trajectory

set_option linter.unusedSectionVars false

/-!
# Property C13: `evaluateRange`
-/

namespace Verif.Properties

open Spec

variable {K : Type*} [Field K] [LinearOrder K] [IsStrictOrderedRing K]

/-- `v` is the `k`-th derivative at time `t` of a segment whose closed time interval contains `t`. At a joint two segments qualify. -/
def ValueAt (segs : List (Segment K)) (k : ℕ) (t : K) (v : List K) : Prop :=
  ∃ (j : ℕ) (s : Segment K), segs[j]? = some s ∧ startOf segs j ≤ t ∧ t ≤ startOf segs j + s.time ∧
    v = segDeriv s k (t - startOf segs j)

theorem duration_drop_nonneg (segs : List (Segment K)) (hT : ∀ s ∈ segs, 0 ≤ s.time) (j : ℕ) :
    startOf segs j ≤ duration segs := by
  have : duration segs = duration (segs.take j) + duration (segs.drop j) := by
    rw [← duration_append, List.take_append_drop]
  rw [this, startOf]
  have := duration_nonneg (segs.drop j) (fun s hs => hT s (List.mem_of_mem_drop hs))
  linarith

theorem rangeLoop_spec (segs : List (Segment K)) (hT : ∀ s ∈ segs, 0 ≤ s.time) (hR : ∀ s ∈ segs, Regular s) (tEnd dt : K)
    (hdt : 0 < dt) (k : ℕ) (fuel : ℕ) :
    ∀ (M : ℕ) (acc : K) (i : ℕ) (tau : K) (out : List (K × List K)), i < segs.length → 0 ≤ tau → tEnd ≤ acc + M * dt →
      M + (segs.length - i) ≤ fuel →
      ∃ new, Trajectory.rangeLoop segs tEnd dt k fuel acc i tau out = .ok (out ++ new) ∧
        (∀ n : ℕ, n < new.length ↔ (acc + n * dt < tEnd ∧ startOf segs i + tau + n * dt ≤ duration segs)) ∧
        ∀ (n : ℕ) (x : K × List K), new[n]? = some x → x.1 = acc + n * dt ∧ ValueAt segs k (startOf segs i + tau + n * dt) x.2 := by
  induction fuel with
  | zero => intro M acc i tau out hi; omega
  | succ fuel ih =>
    intro M acc i tau out hi htau hM hfuel
    have hs : segs[i]? = some segs[i] := List.getElem?_eq_getElem hi
    have hmem : segs[i] ∈ segs := List.getElem_mem hi
    unfold Trajectory.rangeLoop
    by_cases hacc : acc < tEnd
    · rw [if_pos hacc]
      simp only [at?, hs, bind, Except.bind]
      by_cases ht : tau > segs[i].time
      · rw [if_pos ht]
        by_cases hlast : segs.length ≤ i + 1
        · rw [if_pos hlast]
          refine ⟨[], by simp [pure, Except.pure], ?_, by simp⟩
          intro n
          have hd : duration segs = startOf segs i + segs[i].time := by
            rw [← startOf_succ segs i _ hs, show i + 1 = segs.length by omega, startOf_length]
          have h0 : (0 : K) ≤ n * dt := by positivity
          simp only [List.length_nil, not_lt_zero, false_iff, not_and, not_le]
          intro _
          rw [hd]; linarith
        · rw [if_neg hlast]
          obtain ⟨new, h1, h2, h3⟩ := ih M acc (i + 1) (tau - segs[i].time) out (by omega) (by linarith) hM (by omega)
          have e : startOf segs (i + 1) + (tau - segs[i].time) = startOf segs i + tau := by
            rw [startOf_succ segs i _ hs]; ring
          rw [e] at h2 h3
          exact ⟨new, h1, h2, h3⟩
      · rw [if_neg ht, segment_evaluate_eq _ _ _ (hR _ hmem).le]
        have hMpos : 0 < M := by
          rcases Nat.eq_zero_or_pos M with h | h
          · subst h; simp at hM; exact absurd hacc (not_lt.mpr hM)
          · exact h
        obtain ⟨M', rfl⟩ : ∃ M', M = M' + 1 := ⟨M - 1, by omega⟩
        obtain ⟨new, h1, h2, h3⟩ := ih M' (acc + dt) i (tau + dt) (out ++ [(acc, segDeriv segs[i] k tau)]) hi (by linarith)
          (by push_cast at hM; linarith) (by omega)
        refine ⟨(acc, segDeriv segs[i] k tau) :: new, by simpa using h1, ?_, ?_⟩
        · intro n
          cases n with
          | zero =>
            simp only [List.length_cons, Nat.zero_lt_succ, Nat.cast_zero, zero_mul, add_zero, true_iff]
            refine ⟨hacc, ?_⟩
            have := duration_drop_nonneg segs hT (i + 1)
            rw [startOf_succ segs i _ hs] at this
            linarith
          | succ n =>
            have := h2 n
            simp only [List.length_cons, Nat.succ_lt_succ_iff]
            rw [this]
            push_cast
            rw [show acc + dt + n * dt = acc + (n + 1) * dt by ring,
              show startOf segs i + (tau + dt) + n * dt = startOf segs i + tau + (n + 1) * dt by ring]
        · intro n x hx
          cases n with
          | zero =>
            simp only [List.getElem?_cons_zero, Option.some.injEq] at hx
            subst hx
            refine ⟨by simp, i, segs[i], hs, ?_, ?_, ?_⟩
            · simp [htau]
            · simp [not_lt.mp ht]
            · simp
          | succ n =>
            obtain ⟨g1, g2⟩ := h3 n x (by simpa using hx)
            push_cast
            refine ⟨by rw [g1]; ring, ?_⟩
            rw [show startOf segs i + tau + (n + 1) * dt = startOf segs i + (tau + dt) + n * dt by ring]
            exact g2
    · rw [if_neg hacc]
      refine ⟨[], by simp, ?_, by simp⟩
      intro n
      have h0 : (0 : K) ≤ n * dt := by positivity
      simp only [List.length_nil, not_lt_zero, false_iff, not_and]
      intro h
      linarith

theorem evaluateRange_start (tr : Trajectory K) (tStart tEnd dt : K) (k fuel j : ℕ) (s : Segment K)
    (hT : ∀ s ∈ tr.segments, 0 ≤ s.time) (hdt : dt ≠ 0) (hcast : -1 < (tEnd - tStart) / dt + 1)
    (hj : tr.segments[j]? = some s) (h1 : startOf tr.segments j ≤ tStart) (h2 : tStart < startOf tr.segments j + s.time) :
    tr.evaluateRange fuel tStart tEnd dt k =
      Trajectory.rangeLoop tr.segments tEnd dt k fuel (startOf tr.segments j) j (tStart - startOf tr.segments j) [] := by
  obtain ⟨hsp, hlen⟩ := split_at tr.segments j s hj
  have hf : Trajectory.findSegment tStart tr.segments 0 0 = (startOf tr.segments j + s.time, j) := by
    conv_lhs => rw [hsp]
    rw [findSegment_mid tStart _ s _ 0 0 (fun x hx => hT x (List.mem_of_mem_take hx)) (by simpa [startOf] using h1)
      (by simpa [startOf] using h2), hlen]
    simp [startOf]
  unfold Trajectory.evaluateRange
  rw [if_neg (by push Not; exact ⟨hdt, hcast⟩)]
  simp only [hf]
  rw [if_neg (not_lt.mpr h2.le)]
  simp only [at?, hj, bind, Except.bind]
  rw [show startOf tr.segments j + s.time - s.time = startOf tr.segments j by ring]

/-- More fuel does not change a finished run. -/
theorem rangeLoop_mono (segs : List (Segment K)) (tEnd dt : K) (k : ℕ) : ∀ (f d : ℕ) (acc : K) (i : ℕ) (tau : K)
    (out r : List (K × List K)), Trajectory.rangeLoop segs tEnd dt k f acc i tau out = .ok r →
      Trajectory.rangeLoop segs tEnd dt k (f + d) acc i tau out = .ok r := by
  intro f d
  induction f with
  | zero =>
    intro acc i tau out r h
    unfold Trajectory.rangeLoop at h
    by_cases ha : acc < tEnd
    · rw [if_pos ha] at h; cases h
    · rw [if_neg ha] at h
      cases d with
      | zero => unfold Trajectory.rangeLoop; rw [if_neg ha]; exact h
      | succ d => unfold Trajectory.rangeLoop; rw [if_neg ha]; exact h
  | succ f ihf =>
    intro acc i tau out r h
    rw [show f + 1 + d = (f + d) + 1 by omega]
    unfold Trajectory.rangeLoop at h ⊢
    by_cases ha : acc < tEnd
    · rw [if_pos ha] at h ⊢
      cases hat : at? segs i with
      | error e => rw [hat] at h; cases h
      | ok sg =>
        rw [hat] at h
        simp only [bind, Except.bind] at h ⊢
        by_cases ht : tau > sg.time
        · rw [if_pos ht] at h ⊢
          by_cases hl : segs.length ≤ i + 1
          · rw [if_pos hl] at h ⊢; exact h
          · rw [if_neg hl] at h ⊢; exact ihf _ _ _ _ _ h
        · rw [if_neg ht] at h ⊢
          cases hev : sg.evaluate tau k with
          | error e => rw [hev] at h; cases h
          | ok v => rw [hev] at h; simp only at h ⊢; exact ihf _ _ _ _ _ h
    · rw [if_neg ha] at h ⊢; exact h

/-- C13, exactly what the code computes for a positive step and a start inside the trajectory (in the segment starting at `o`):
it terminates, and its `n`-th sample is the value at `tStart + n * dt` but is reported with the sampling time `o + n * dt`; samples are
taken as long as the *reported* time is before `tEnd` and the *sampled* time is within the trajectory. -/
theorem C13_samples [Archimedean K] (tr : Trajectory K) (tStart tEnd dt : K) (k j : ℕ) (s : Segment K)
    (hT : ∀ s ∈ tr.segments, 0 ≤ s.time) (hR : ∀ s ∈ tr.segments, Regular s) (hdt : 0 < dt)
    (hcast : -1 < (tEnd - tStart) / dt + 1)
    (hj : tr.segments[j]? = some s) (h1 : startOf tr.segments j ≤ tStart) (h2 : tStart < startOf tr.segments j + s.time) :
    ∃ (out : List (K × List K)) (fuel₀ : ℕ), (∀ fuel ≥ fuel₀, tr.evaluateRange fuel tStart tEnd dt k = .ok out) ∧
      (∀ n : ℕ, n < out.length ↔ (startOf tr.segments j + n * dt < tEnd ∧ tStart + n * dt ≤ duration tr.segments)) ∧
      ∀ (n : ℕ) (x : K × List K), out[n]? = some x →
        x.1 = startOf tr.segments j + n * dt ∧ ValueAt tr.segments k (tStart + n * dt) x.2 := by
  obtain ⟨M, hM⟩ := Archimedean.arch (tEnd - startOf tr.segments j) hdt
  rw [nsmul_eq_mul] at hM
  have hjl := (List.getElem?_eq_some_iff.mp hj).1
  have hspec := fun fuel (hf : M + (tr.segments.length - j) ≤ fuel) =>
    rangeLoop_spec tr.segments hT hR tEnd dt hdt k fuel M (startOf tr.segments j) j (tStart - startOf tr.segments j) []
      hjl (by linarith) (by linarith) hf
  have e : ∀ x : K, startOf tr.segments j + (tStart - startOf tr.segments j) + x = tStart + x := by intro x; ring
  simp only [e] at hspec
  obtain ⟨new, g1, g2, g3⟩ := hspec _ (le_refl _)
  refine ⟨new, M + (tr.segments.length - j), ?_, g2, g3⟩
  intro fuel hf
  rw [evaluateRange_start tr tStart tEnd dt k fuel j s hT hdt.ne' hcast hj h1 h2]
  obtain ⟨new', f1, f2, f3⟩ := hspec fuel hf
  obtain ⟨d, rfl⟩ := Nat.exists_eq_add_of_le hf
  exact rangeLoop_mono _ _ _ _ _ d _ _ _ _ _ g1

/-- The full claim C13: the samples are the values of the trajectory at the reported sampling times, which are `tStart`,
`tStart + dt`, ... before `tEnd` and within the trajectory. -/
def C13Full : Prop :=
  ∀ (tr : Trajectory ℝ) (tStart tEnd dt : ℝ) (k fuel : ℕ) (out : List (ℝ × List ℝ)),
    (∀ s ∈ tr.segments, 0 < s.time) → (∀ s ∈ tr.segments, Regular s) → 0 ≤ tStart → tStart < duration tr.segments → 0 < dt →
    tr.evaluateRange fuel tStart tEnd dt k = .ok out →
    (∀ n : ℕ, n < out.length ↔ (tStart + n * dt < tEnd ∧ tStart + n * dt ≤ duration tr.segments)) ∧
    ∀ (n : ℕ) (x : ℝ × List ℝ), out[n]? = some x → x.1 = tStart + n * dt

/-- C13 is false of the code: sampling the one-segment trajectory of length 10 from 3 to 5 in steps of 1 reports the times 0, 1, 2, 3,
4 (and takes five samples, at 3, ..., 7). -/
theorem C13_refuted : ¬ C13Full := by
  intro h
  let tr : Trajectory ℝ := ⟨1, 2, 10, [⟨2, 10, [[0, 1]]⟩]⟩
  have hT : ∀ s ∈ tr.segments, (0 : ℝ) < s.time := by simp [tr]
  have hR : ∀ s ∈ tr.segments, Regular s := by simp [tr, Regular]
  obtain ⟨out, fuel, h1, h2, h3⟩ := C13_samples tr 3 5 1 0 0 ⟨2, 10, [[0, 1]]⟩ (fun s hs => (hT s hs).le) hR (by norm_num) (by norm_num)
    rfl (by simp [startOf]) (by simp [startOf]; norm_num)
  obtain ⟨_, g2⟩ := h tr 3 5 1 0 fuel out hT hR (by norm_num) (by simp [tr]; norm_num) (by norm_num) (h1 fuel (le_refl _))
  have hlen : 0 < out.length := (h2 0).mpr (by simp [startOf, tr]; norm_num)
  have hx : out[0]? = some out[0] := List.getElem?_eq_getElem hlen
  have a := (h3 0 _ hx).1
  have b := g2 0 _ hx
  rw [a] at b
  simp [startOf] at b

/-- C13, what holds: when `tStart` is the start of a segment (in particular 0), the segments have positive durations and the
requested derivative is continuous across joints, the samples are exactly `evaluate` at `tStart + n * dt`, reported with those times,
for all `n` with `tStart + n * dt` before `tEnd` and within the trajectory. -/
theorem C13_from_joint_partial [Archimedean K] (tr : Trajectory K) (tEnd dt : K) (k j : ℕ)
    (hT : ∀ s ∈ tr.segments, 0 < s.time) (hR : ∀ s ∈ tr.segments, Regular s) (hdt : 0 < dt) (hj : j < tr.segments.length)
    (hcast : -1 < (tEnd - startOf tr.segments j) / dt + 1)
    (hcont : ∀ (i : ℕ) (a b : Segment K), tr.segments[i]? = some a → tr.segments[i + 1]? = some b →
      segDeriv a k a.time = segDeriv b k 0) :
    ∃ (out : List (K × List K)) (fuel₀ : ℕ),
      (∀ fuel ≥ fuel₀, tr.evaluateRange fuel (startOf tr.segments j) tEnd dt k = .ok out) ∧
      (∀ n : ℕ, n < out.length ↔
        (startOf tr.segments j + n * dt < tEnd ∧ startOf tr.segments j + n * dt ≤ duration tr.segments)) ∧
      ∀ (n : ℕ) (x : K × List K), out[n]? = some x →
        x.1 = startOf tr.segments j + n * dt ∧ tr.evaluate (startOf tr.segments j + n * dt) k = .ok x.2 := by
  have hs : tr.segments[j]? = some tr.segments[j] := List.getElem?_eq_getElem hj
  have hT' : ∀ s ∈ tr.segments, 0 ≤ s.time := fun s hs => (hT s hs).le
  obtain ⟨out, fuel₀, h1, h2, h3⟩ := C13_samples tr (startOf tr.segments j) tEnd dt k j _ hT' hR hdt hcast hs (le_refl _)
    (by have := hT _ (List.getElem_mem hj); linarith)
  refine ⟨out, fuel₀, h1, h2, fun n x hx => ⟨(h3 n x hx).1, ?_⟩⟩
  obtain ⟨i, a, hi, g1, g2, g3⟩ := (h3 n x hx).2
  have ham := List.mem_of_getElem? hi
  rcases lt_or_eq_of_le g2 with hlt | heq
  · rw [g3]; exact evaluate_inside tr _ k i a hT' (hR a ham).le hi g1 hlt
  · rw [g3, heq, show startOf tr.segments i + a.time - startOf tr.segments i = a.time by ring, ← startOf_succ _ _ _ hi]
    have hil := (List.getElem?_eq_some_iff.mp hi).1
    by_cases hnext : i + 1 < tr.segments.length
    · have hb : tr.segments[i + 1]? = some tr.segments[i + 1] := List.getElem?_eq_getElem hnext
      rw [hcont i a _ hi hb]
      have := evaluate_inside tr (startOf tr.segments (i + 1)) k (i + 1) _ hT' (hR _ (List.getElem_mem hnext)).le hb (le_refl _)
        (by have := hT _ (List.getElem_mem hnext); linarith)
      rw [this, sub_self]
    · have e : i + 1 = tr.segments.length := by omega
      rw [e, startOf_length]
      obtain ⟨hsp, _⟩ := split_at tr.segments i a hi
      rw [List.drop_of_length_le (by omega)] at hsp
      exact evaluate_end tr k _ a hsp hT' (hR a ham).le

-- `sampleTraj` is continuous in position, so the partial theorem applies to it
example : (∀ s ∈ sampleTraj.segments, 0 < s.time) ∧
    (∃ a b, sampleTraj.segments[0]? = some a ∧ sampleTraj.segments[1]? = some b ∧
      a.evaluate a.time 0 = b.evaluate 0 0) ∧
    sampleTraj.evaluateRange 10 0 3 1 0 = .ok [(0, [0, 1]), (1, [1, 1]), (2, [2, 1])] := by
  refine ⟨by decide +kernel, ⟨_, _, rfl, rfl, by decide +kernel⟩, by decide +kernel⟩

/-- C13: starting exactly at the end of the trajectory reads past the last segment. -/
theorem C13_start_at_end (tr : Trajectory K) (tEnd dt : K) (k fuel : ℕ) (hT : ∀ s ∈ tr.segments, 0 ≤ s.time) :
    tr.evaluateRange fuel (duration tr.segments) tEnd dt k = .error .ub := by
  unfold Trajectory.evaluateRange
  split
  · rfl
  · rw [findSegment_end _ _ _ _ hT (by simp)]
    simp [at?, bind, Except.bind]

/-- C13: starting beyond the end gives no samples. -/
theorem C13_start_beyond (tr : Trajectory K) (tStart tEnd dt : K) (k fuel : ℕ) (hT : ∀ s ∈ tr.segments, 0 ≤ s.time)
    (h : duration tr.segments < tStart) (hdt : dt ≠ 0) (hcast : -1 < (tEnd - tStart) / dt + 1) :
    tr.evaluateRange fuel tStart tEnd dt k = .ok [] := by
  unfold Trajectory.evaluateRange
  rw [if_neg (by push Not; exact ⟨hdt, hcast⟩), findSegment_end _ _ _ _ hT (by simpa using h.le)]
  simp [h]

/-- C13: with a zero or negative step and a segment start before `tEnd` the call never returns samples: no number of iterations is
enough. -/
theorem C13_nonpositive_step (tr : Trajectory K) (tStart tEnd dt : K) (k fuel j : ℕ) (s : Segment K)
    (hT : ∀ s ∈ tr.segments, 0 ≤ s.time) (hR : ∀ s ∈ tr.segments, Regular s) (hdt : dt ≤ 0)
    (hj : tr.segments[j]? = some s) (h1 : startOf tr.segments j ≤ tStart) (h2 : tStart < startOf tr.segments j + s.time)
    (hend : startOf tr.segments j < tEnd) :
    tr.evaluateRange fuel tStart tEnd dt k = .error .ub ∨ tr.evaluateRange fuel tStart tEnd dt k = .error .hang := by
  by_cases hub : dt = 0 ∨ (tEnd - tStart) / dt + 1 ≤ -1
  · left; unfold Trajectory.evaluateRange; rw [if_pos hub]
  · right
    push Not at hub
    rw [evaluateRange_start tr tStart tEnd dt k fuel j s hT hub.1 hub.2 hj h1 h2]
    have key : ∀ (f : ℕ) (acc tau : K) (out : List (K × List K)), acc < tEnd → tau ≤ s.time →
        Trajectory.rangeLoop tr.segments tEnd dt k f acc j tau out = .error .hang := by
      intro f
      induction f with
      | zero => intro acc tau out ha _; unfold Trajectory.rangeLoop; rw [if_pos ha]
      | succ f ih =>
        intro acc tau out ha ht
        unfold Trajectory.rangeLoop
        rw [if_pos ha]
        simp only [at?, hj, bind, Except.bind]
        rw [if_neg (not_lt.mpr ht), segment_evaluate_eq _ _ _ (hR s (List.mem_of_getElem? hj)).le]
        exact ih _ _ _ (by linarith) (by linarith)
    exact key fuel _ _ _ hend (by linarith)

example : sampleTraj.evaluateRange 50 (5 / 2) 3 (-1) 0 = .error .hang ∧ sampleTraj.evaluateRange 50 0 3 (-1) 0 = .error .ub := by
  decide +kernel

end Verif.Properties
