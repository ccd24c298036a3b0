import Verif.Lemmas.NonlinearInfo
import Verif.Properties.LinearOptHistory
import Verif.Properties.ScaleToMeet

/-!
# The Mellinger gradient and the final scaling of the times
-/

set_option linter.unusedSectionVars false

namespace Verif.Lemmas

open Verif Spec LinOpt NonLin Properties
variable {h dim : ℕ} {rf : Poly.RootFinder ℝ} {solve : LinSolver ℝ}

/-- The entries of the gradient loop: difference quotients of costs of linear solutions. -/
theorem gradientLoop_values {q : Problem ℝ} (ts : List ℝ) (cost : ℝ) (ns : List ℕ) (p p' : LinOpt h ℝ) (acc g : List ℝ)
    (hh : ∃ ts', LinHistory h dim solve (some { q with times := ts' }) p) (hg : gradientLoop solve ts cost ns p acc = .ok (p', g)) :
    (∃ r, g = acc ++ r ∧ ∀ (j n : ℕ), ns[j]? = some n → ∃ p1 p2 c, LinHistory h dim solve (some { q with times := mellingerTimes ts n }) p1 ∧
      p1.solveLinear solve = .ok p2 ∧ p2.computeCost = .ok c ∧ r[j]? = some ((c - cost) / (1 / 10))) := by
  induction ns generalizing p acc with
  | nil =>
    obtain ⟨e1, e2⟩ := Prod.mk.inj (Except.ok.inj hg)
    exact ⟨[], by rw [← e2, List.append_nil], fun j n hj => by cases hj⟩
  | cons n ns ih =>
    unfold gradientLoop at hg
    obtain ⟨ts', hh⟩ := hh
    obtain ⟨p1, h1, hg⟩ := bind_eq_ok hg
    obtain ⟨p2, h2, hg⟩ := bind_eq_ok hg
    obtain ⟨c, h3, hg⟩ := bind_eq_ok hg
    have hh1 : LinHistory h dim solve (some { q with times := mellingerTimes ts n }) p1 := .times (q := { q with times := ts' }) _ hh h1
    obtain ⟨r, hr, hv⟩ := ih p2 _ ⟨_, .solve hh1 h2⟩ hg
    refine ⟨(c - cost) / (1 / 10) :: r, by rw [hr]; simp, fun j m hj => ?_⟩
    cases j with
    | zero =>
      simp only [List.getElem?_cons_zero, Option.some.injEq] at hj
      rw [← hj]
      exact ⟨p1, p2, c, hh1, h2, h3, rfl⟩
    | succ j => simpa using hv j m (by simpa using hj)

theorem mellinger_values {q : Problem ℝ} (o o' : NonLin h) (c : ℝ) (g : List ℝ) (hh : Solved h dim solve q o.poly)
    (ho : getCostAndGradientMellinger solve o = .ok (o', c, g)) :
    (q.times.length = 1 → g = [0] ∧ o' = o) ∧
    (q.times.length ≠ 1 → (∃ p1, LinHistory h dim solve (some q) p1 ∧ p1.solveLinear solve = .ok o'.poly) ∧
      ∀ i < q.times.length, ∃ p1 p2 ci, LinHistory h dim solve (some { q with times := mellingerTimes q.times i }) p1 ∧
      p1.solveLinear solve = .ok p2 ∧ p2.computeCost = .ok ci ∧ g[i]? = some ((ci - c) / (1 / 10))) := by
  unfold getCostAndGradientMellinger at ho
  have hn := ((LinOpt.inv_history dim solve _ _ hh.history).2 q rfl).nSegments
  have ht := LinHistory_times hh.history
  obtain ⟨c', hc, ho⟩ := bind_eq_ok ho
  split at ho
  · rename_i h1
    rw [hn] at h1
    obtain ⟨e1, e2⟩ := Prod.mk.inj (Except.ok.inj ho)
    obtain ⟨e2, e3⟩ := Prod.mk.inj e2
    refine ⟨fun _ => ⟨by rw [← e3, hn, h1]; rfl, e1.symm⟩, fun h => absurd h1 h⟩
  · rename_i h1
    rw [hn] at h1
    obtain ⟨r, hg, ho⟩ := bind_eq_ok ho
    obtain ⟨p1, h2, ho⟩ := bind_eq_ok ho
    obtain ⟨p2, h3, ho⟩ := bind_eq_ok ho
    obtain ⟨e1, e2⟩ := Prod.mk.inj (Except.ok.inj ho)
    obtain ⟨e2, e3⟩ := Prod.mk.inj e2
    refine ⟨fun h => absurd h h1, fun _ => ?_⟩
    obtain ⟨⟨ts', hr⟩, _⟩ := gradientLoop_spec (dim := dim) (q := q) _ _ _ _ r.1 _ r.2 ⟨q.times, hh.history⟩ hg
    obtain ⟨l, hl, hv⟩ := gradientLoop_values (dim := dim) (q := q) _ _ _ _ r.1 _ r.2 ⟨q.times, hh.history⟩ hg
    have hh1 : LinHistory h dim solve (some { q with times := o.poly.times }) p1 := .times (q := { q with times := ts' }) _ hr h2
    rw [ht] at hh1 hv
    refine ⟨⟨p1, hh1, by rw [← e1]; exact h3⟩, fun i hi => ?_⟩
    obtain ⟨a, b, ci, u1, u2, u3, u4⟩ := hv i i (by rw [List.getElem?_range (by rw [hn]; exact hi)])
    refine ⟨a, b, ci, u1, u2, u3, ?_⟩
    rw [← e3, hl, ← e2]
    simpa using u4

theorem mellingerTimes_perturbed (ts : List ℝ) (i : ℕ) : Perturbed ts i (mellingerTimes ts i) := by
  refine ⟨by simp [mellingerTimes], fun j t t' h1 h2 => ?_⟩
  unfold mellingerTimes kOptimizationTimeLowerBound at h2
  rw [List.getElem?_map, List.getElem?_zipIdx, h1] at h2
  simp only [Option.map_some, Option.some.injEq, zero_add] at h2
  exact h2.symm

theorem perturbed_unique {ts a b : List ℝ} {i : ℕ} (ha : Perturbed ts i a) (hb : Perturbed ts i b) : a = b := by
  refine List.ext_getElem? fun j => ?_
  by_cases hj : j < ts.length
  · have h1 := ha.1
    have h2 := hb.1
    rw [List.getElem?_eq_getElem (h1 ▸ hj), List.getElem?_eq_getElem (h2 ▸ hj)]
    rw [ha.2 j ts[j] _ (List.getElem?_eq_getElem hj) (List.getElem?_eq_getElem (h1 ▸ hj)),
      hb.2 j ts[j] _ (List.getElem?_eq_getElem hj) (List.getElem?_eq_getElem (h2 ▸ hj))]
  · rw [List.getElem?_eq_none (by rw [ha.1]; omega), List.getElem?_eq_none (by rw [hb.1]; omega)]

/-- The trajectory of a solved object is well formed. -/
theorem solved_usable {q : Problem ℝ} {p : LinOpt h ℝ} (hs : Solved h dim solve q p) (hdim : 0 < dim) (hq : q.times ≠ []) (tr : Trajectory ℝ)
    (htr : p.getTrajectory = .ok tr) :
    tr.D = dim ∧ tr.N = h + h ∧ tr.segments ≠ [] ∧ Consistent tr ∧ ∀ s ∈ tr.segments, Regular s ∧ 0 < s.time := by
  have hts := solved_times_sum hs hdim tr htr
  obtain ⟨p0, hh, hu⟩ := hs
  have hi := (inv_history dim solve _ p0 hh).2 q rfl
  obtain ⟨free, hi1, _, hl, hlen, hsg⟩ := solved_spec dim q solve p0 p hi hu
  have es := setSegments_segments _ _ htr
  have hne : p.segments ≠ [] := by
    intro e
    rw [e] at hl
    exact hq (List.length_eq_zero_iff.mp hl.symm)
  have hR : ∀ s ∈ tr.segments, SegShape h dim s ∧ Regular s ∧ 0 < s.time := by
    intro s hs
    rw [es] at hs
    obtain ⟨j, hj⟩ := List.getElem?_of_mem hs
    obtain ⟨sh, ht, _⟩ := hsg j s hj
    obtain ⟨hN, hd, _⟩ := hi.segment j s.time (ht hdim)
    have : (0 : ℝ) < Poly.dblEps := by unfold Poly.dblEps; norm_num
    exact ⟨sh, ⟨fun c hc => by rw [sh.1]; exact sh.2.2 c hc, by rw [sh.1]; exact hN⟩, by linarith⟩
  have hD : tr.D = dim ∧ tr.N = h + h ∧ Consistent tr := by
    unfold LinOpt.getTrajectory Trajectory.setSegments at htr
    split at htr
    · cases htr
    · rename_i s rest hseg
      have hs0 := (hR s (by rw [es, hseg]; simp)).1
      have hc : Consistent tr := consistent_addSegments ⟨s.D, s.N, 0, []⟩ tr _ ⟨by simp [duration], by simp⟩ htr
      obtain ⟨m, _, e⟩ := bind_eq_ok htr
      have e := Except.ok.inj e
      refine ⟨?_, ?_, hc⟩
      · rw [← e]; exact hs0.2.1
      · rw [← e]; exact hs0.1
  exact ⟨hD.1, hD.2.1, by rw [es]; exact hne, hD.2.2, fun s hs => (hR s hs).2⟩

/-- Changing the times and solving again succeeds. -/
theorem resolve_total {q : Problem ℝ} {p : LinOpt h ℝ} (hh : LinHistory h dim solve (some q) p) (hN : h + h ≤ 22) (hq : q.times ≠ [])
    (hsv : Solvable dim p) (x : List ℝ) (hl : x.length = q.times.length) (ht : ∀ t ∈ x, Poly.dblEps ≤ t) :
    ∃ p1 p2, p.updateSegmentTimes x = .ok p1 ∧ p1.solveLinear solve = .ok p2 ∧ LinHistory h dim solve (some { q with times := x }) p1 ∧
      Solvable dim p2 := by
  obtain ⟨p1, h1, e1, e2, _⟩ := times_total hh hN x hl ht
  have hh1 : LinHistory h dim solve (some { q with times := x }) p1 := .times x hh h1
  have hxne : x ≠ [] := by
    intro e; rw [e] at hl; exact hq (List.length_eq_zero_iff.mp hl.symm)
  obtain ⟨p2, h2⟩ := solve_total dim { q with times := x } solve p1 ((inv_history dim solve _ p1 hh1).2 _ rfl)
    (List.length_pos_iff.mpr hxne) (fun h0 => by
      rw [e2]
      exact ⟨hsv.1, hsv.2 (e1.symm.trans h0)⟩)
  exact ⟨p1, p2, h1, h2, hh1, solvable_of_solved hh1 (.inr h2)⟩

theorem mellingerTimes_ge (ts : List ℝ) (i : ℕ) : ∀ t ∈ mellingerTimes ts i, 1 / 10 ≤ t := by
  intro t ht
  obtain ⟨j, hj⟩ := List.getElem?_of_mem ht
  have hp := mellingerTimes_perturbed ts i
  have hlt : j < ts.length := by
    rw [← hp.1]
    exact (List.getElem?_eq_some_iff.mp hj).1
  rw [hp.2 j _ t (List.getElem?_eq_getElem hlt) hj]
  exact le_max_left _ _

theorem gradientLoop_total {q : Problem ℝ} (ts : List ℝ) (cost : ℝ) (hN : h + h ≤ 22) (hq : q.times ≠ []) (hl : ts.length = q.times.length)
    (ns : List ℕ) (p : LinOpt h ℝ) (acc : List ℝ) (hh : ∃ ts', ts'.length = q.times.length ∧ LinHistory h dim solve (some { q with times := ts' }) p)
    (hsv : Solvable dim p) : ∃ p' g, gradientLoop solve ts cost ns p acc = .ok (p', g) ∧ Solvable dim p' ∧
      ∃ ts', ts'.length = q.times.length ∧ LinHistory h dim solve (some { q with times := ts' }) p' := by
  induction ns generalizing p acc with
  | nil => exact ⟨p, acc, rfl, hsv, hh⟩
  | cons n ns ih =>
    obtain ⟨ts', hl', hh⟩ := hh
    have hne : ts' ≠ [] := by
      intro e; rw [e] at hl'; exact hq (List.length_eq_zero_iff.mp hl'.symm)
    have hml : (mellingerTimes ts n).length = q.times.length := (mellingerTimes_perturbed ts n).1.trans hl
    obtain ⟨p1, p2, h1, h2, h3, h4⟩ := resolve_total hh hN hne hsv (mellingerTimes ts n) (hml.trans hl'.symm)
      (fun t ht => dblEps_le_tenth.trans (mellingerTimes_ge ts n t ht))
    have h3' : LinHistory h dim solve (some { q with times := mellingerTimes ts n }) p1 := h3
    obtain ⟨p', g, e1, e2⟩ := ih p2 _ ⟨_, hml, .solve h3' h2⟩ h4
    refine ⟨p', g, ?_, e2⟩
    unfold gradientLoop
    rw [h1]
    simp only [bind, Except.bind]
    rw [h2]
    simp only
    rw [C26_cost_solved _ p1 p2 h3' (.inr h2)]
    exact e1

theorem objectiveMellinger_total {q : Problem ℝ} (o : NonLin h) (hh : LinHistory h dim solve (some q) o.poly) (hN : h + h ≤ 22) (hq : q.times ≠ [])
    (hsv : Solvable dim o.poly) (x : List ℝ) (hl : x.length = q.times.length) (ht : ∀ t ∈ x, Poly.dblEps ≤ t) :
    ∃ o' r, objectiveFunctionTimeMellingerOuterLoop solve o x true = .ok (o', r) := by
  have hi := (inv_history dim solve _ o.poly hh).2 q rfl
  obtain ⟨p1, p2, h1, h2, h3, h4⟩ := resolve_total hh hN hq hsv x hl ht
  have hi2 := (inv_history dim solve _ p2 (.solve h3 h2)).2 _ rfl
  have htm : p2.times = x := LinHistory_times (.solve h3 h2)
  have hxne : x ≠ [] := by
    intro e; rw [e] at hl; exact hq (List.length_eq_zero_iff.mp hl.symm)
  have hg : ∃ r, getCostAndGradientMellinger solve { o with poly := p2 } = .ok r := by
    unfold getCostAndGradientMellinger
    simp only [C26_cost_solved _ p1 p2 h3 (.inr h2), bind, Except.bind]
    by_cases h1s : p2.nSegments = 1
    · rw [if_pos h1s]; exact ⟨_, rfl⟩
    · rw [if_neg h1s]
      obtain ⟨p', g, e1, e2, ts', hl', e3⟩ := gradientLoop_total (q := q) (dim := dim) p2.times (energy q.derivative.toNat p2.segments) hN hq
        (by rw [htm]; exact hl) (List.range p2.nSegments) p2 [] ⟨x, hl, .solve h3 h2⟩ h4
      have hne : ts' ≠ [] := by
        intro e; rw [e] at hl'; exact hq (List.length_eq_zero_iff.mp hl'.symm)
      obtain ⟨p3, p4, u1, u2, _⟩ := resolve_total e3 hN hne e2 p2.times (by rw [htm]; exact hl.trans hl'.symm) (by rw [htm]; exact ht)
      rw [e1]
      simp only
      rw [u1]
      simp only
      rw [u2]
      exact ⟨_, rfl⟩
  obtain ⟨r, hg⟩ := hg
  unfold objectiveFunctionTimeMellingerOuterLoop
  rw [if_neg (by simp), if_neg (by rw [hi.nSegments]; exact not_not.mpr hl), h1]
  simp only [bind, Except.bind]
  rw [h2]
  simp only
  rw [hg]
  exact ⟨_, _, rfl⟩

end Verif.Lemmas
