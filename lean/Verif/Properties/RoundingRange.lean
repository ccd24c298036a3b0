import Verif.Properties.Rounding

/-!
# Property C104: sampling with rounding
-/

set_option linter.unusedSectionVars false

namespace Verif.Properties
open Verif Verif.Spec

/-- One more rounded sum or difference. -/
theorem round_step {u : ℝ} {rnd : ℝ → ℝ} (hu : 0 ≤ u) (hr : RelativeError u rnd) {x x' y B : ℝ} {m : ℕ} (h : |x' - x| ≤ ((1 + u) ^ m - 1) * B) (hB : |x + y| ≤ B) :
    |rnd (x' + y) - (x + y)| ≤ ((1 + u) ^ (m + 1) - 1) * B := by
  have h1 := hr (x' + y)
  have h2 : |x' + y - (x + y)| ≤ ((1 + u) ^ m - 1) * B := by rw [show x' + y - (x + y) = x' - x by ring]; exact h
  have h3 : |x' + y| ≤ (1 + u) ^ m * B := by
    have := abs_sub_abs_le_abs_sub (x' + y) (x + y)
    linarith
  have h4 : |rnd (x' + y) - (x + y)| ≤ |rnd (x' + y) - (x' + y)| + |x' + y - (x + y)| := abs_sub_le _ _ _
  have h5 : u * |x' + y| ≤ u * ((1 + u) ^ m * B) := mul_le_mul_of_nonneg_left h3 hu
  rw [pow_succ]
  nlinarith

section Loop
variable {u : ℝ} {rnd : ℝ → ℝ} (hu : 0 ≤ u) (hr : RelativeError u rnd) {segs : List (Segment ℝ)} (hT : ∀ s ∈ segs, 0 ≤ s.time) (hR : ∀ s ∈ segs, Regular s)
  {tStart tEnd dt a₀ B : ℝ} {k : ℕ} (h0 : 0 ≤ tStart) (h0e : tStart ≤ tEnd) (hdt : 0 < dt) (hstep : u * (tEnd + dt) ≤ dt / 2) (ha₀ : 0 ≤ a₀)
  (hB : 3 * tEnd + 2 * dt + duration segs ≤ B)
include hu hr hT hR h0 h0e hdt hstep ha₀ hB

theorem rangeLoop_near (N : ℕ) (hN : tEnd ≤ N * (dt / 2)) : ∀ (M : ℕ) (acc : ℝ) (j : ℕ) (τ : ℝ) (out : List (ℝ × List ℝ)),
    j < segs.length → (N - out.length) + (segs.length - j) ≤ M → out.length * (dt / 2) ≤ acc → |acc - (a₀ + out.length * dt)| ≤ ((1 + u) ^ out.length - 1) * (a₀ + out.length * dt) →
    out.length * (dt / 2) ≤ tEnd + dt / 2 →
    |τ - (tStart + out.length * dt - startOf segs j)| ≤ ((1 + u) ^ (3 + out.length + j) - 1) * B →
    (∀ i x, out[i]? = some x → NearSample u segs tStart dt a₀ B k i x) →
    ∃ out', (∀ fuel ≥ M, Fl.rangeLoop rnd segs tEnd dt k fuel acc j τ out = .ok out') ∧ (∀ i x, out'[i]? = some x → NearSample u segs tStart dt a₀ B k i x) ∧
      out'.length * (dt / 2) ≤ tEnd + dt / 2 ∧
      (tEnd ≤ (1 + u) ^ out'.length * (a₀ + out'.length * dt) ∨ duration segs < tStart + out'.length * dt + ((1 + u) ^ (3 + out'.length + segs.length) - 1) * B) := by
  intro M
  have hB0 : 0 ≤ B := by
    have := duration_nonneg segs hT
    linarith
  induction M with
  | zero => intro acc j τ out hj hM; omega
  | succ M ih =>
    intro acc j τ out hj hM hacc hnear hlen hτ hout
    set n := out.length with hn
    by_cases hend : acc < tEnd
    swap
    · refine ⟨out, ?_, hout, by rw [← hn]; exact hlen, Or.inl ?_⟩
      · intro fuel hf
        obtain ⟨f, rfl⟩ : ∃ f, fuel = f + 1 := ⟨fuel - 1, by omega⟩
        rw [Fl.rangeLoop, if_neg hend]
      · rw [← hn]
        have := abs_le.mp hnear
        linarith
    have hs : segs[j]? = some segs[j] := List.getElem?_eq_getElem hj
    have hsmem : segs[j] ∈ segs := List.getElem_mem hj
    set s := segs[j] with hsdef
    have hsum : startOf segs (j + 1) = startOf segs j + s.time := by
      unfold startOf duration
      rw [List.take_succ_eq_append_getElem hj, List.map_append, List.sum_append, ← hsdef]
      simp
    have hle : ∀ m, startOf segs m ≤ duration segs := by
      intro m
      unfold startOf duration
      conv_rhs => rw [← List.take_append_drop m segs, List.map_append, List.sum_append]
      have : 0 ≤ ((segs.drop m).map (·.time)).sum := duration_nonneg (segs.drop m) fun x hx => hT x (List.mem_of_mem_drop hx)
      linarith
    have hge : ∀ m, 0 ≤ startOf segs m := fun m => duration_nonneg _ fun x hx => hT x (List.mem_of_mem_take hx)
    have hndt : (n : ℝ) * dt ≤ 2 * tEnd := by nlinarith
    have hn0 : 0 ≤ (n : ℝ) * dt := by positivity
    by_cases hτs : τ > s.time
    · by_cases hlast : segs.length ≤ j + 1
      · refine ⟨out, ?_, hout, by rw [← hn]; exact hlen, Or.inr ?_⟩
        · intro fuel hf
          obtain ⟨f, rfl⟩ : ∃ f, fuel = f + 1 := ⟨fuel - 1, by omega⟩
          rw [Fl.rangeLoop, if_pos hend, at?, hs]
          simp only [bind, Except.bind]
          rw [if_pos hτs, if_pos hlast]
          rfl
        · rw [← hn]
          have hd : duration segs = startOf segs (j + 1) := by
            unfold startOf; rw [List.take_of_length_le hlast]
          have h1 := (abs_le.mp hτ).2
          have h2 : (1 + u) ^ (3 + n + j) ≤ (1 + u) ^ (3 + n + segs.length) := pow_le_pow_right₀ (by linarith) (by omega)
          have h3 : ((1 + u) ^ (3 + n + j) - 1) * B ≤ ((1 + u) ^ (3 + n + segs.length) - 1) * B := mul_le_mul_of_nonneg_right (by linarith) hB0
          rw [hd, hsum]
          linarith
      · have hj' : j + 1 < segs.length := by omega
        have hτ' : |rnd (τ - s.time) - (tStart + n * dt - startOf segs (j + 1))| ≤ ((1 + u) ^ (3 + n + (j + 1)) - 1) * B := by
          have := round_step hu hr (y := -s.time) hτ (by
            rw [abs_le]
            constructor <;> linarith [hle (j + 1), hge (j + 1)])
          rw [hsum, show 3 + n + (j + 1) = 3 + n + j + 1 by omega, show tStart + n * dt - (startOf segs j + s.time) = tStart + n * dt - startOf segs j + -s.time by ring]
          exact this
        obtain ⟨out', ho, h1, h2⟩ := ih acc (j + 1) (rnd (τ - s.time)) out hj' (by omega) hacc hnear hlen hτ' hout
        refine ⟨out', ?_, h1, h2⟩
        intro fuel hf
        obtain ⟨f, rfl⟩ : ∃ f, fuel = f + 1 := ⟨fuel - 1, by omega⟩
        rw [Fl.rangeLoop, if_pos hend, at?, hs]
        simp only [bind, Except.bind]
        rw [if_pos hτs, if_neg hlast]
        exact ho f (by omega)
    · obtain ⟨v, hv, hvn⟩ := segment_near u rnd hu hr s (hR s hsmem) τ k
      have hlen' : (out ++ [(acc, v)]).length = n + 1 := by simp [hn]
      have hacc0 : 0 ≤ acc := le_trans (by positivity) hacc
      have hgrow : acc + dt / 2 ≤ rnd (acc + dt) := by
        have h1 := (abs_le.mp (hr (acc + dt))).1
        rw [abs_of_nonneg (show 0 ≤ acc + dt by linarith)] at h1
        have : u * (acc + dt) ≤ u * (tEnd + dt) := mul_le_mul_of_nonneg_left (by linarith) hu
        linarith
      have hnN : n < N := by
        by_contra hc
        have h1 : (N : ℝ) ≤ n := by exact_mod_cast not_lt.mp hc
        have : (N : ℝ) * (dt / 2) ≤ n * (dt / 2) := mul_le_mul_of_nonneg_right h1 (by linarith)
        linarith
      obtain ⟨out', ho, h1, h2⟩ := ih (rnd (acc + dt)) j (rnd (τ + dt)) (out ++ [(acc, v)]) hj (by rw [hlen']; omega)
        (by rw [hlen']; push_cast; linarith)
        (by
          rw [hlen']
          have hb : 0 ≤ a₀ + n * dt + dt := by positivity
          have hnear' : |acc - (a₀ + n * dt)| ≤ ((1 + u) ^ n - 1) * (a₀ + n * dt + dt) := by
            refine hnear.trans (mul_le_mul_of_nonneg_left (by linarith) (sub_nonneg.mpr (one_le_pow₀ (by linarith))))
          have := round_step hu hr (y := dt) hnear' (by rw [abs_of_nonneg hb])
          push_cast
          rw [show a₀ + (n + 1) * dt = a₀ + n * dt + dt by ring]
          exact this)
        (by rw [hlen']; push_cast; linarith)
        (by
          rw [hlen']
          have := round_step hu hr (y := dt) hτ (by
            rw [abs_le]
            constructor <;> linarith [hle j, hge j])
          push_cast
          rw [show tStart + (n + 1) * dt - startOf segs j = tStart + n * dt - startOf segs j + dt by ring, show 3 + (n + 1) + j = 3 + n + j + 1 by omega]
          exact this)
        (by
          intro i x hx
          rcases Nat.lt_or_ge i n with hlt | hge'
          · rw [List.getElem?_append_left hlt] at hx
            exact hout i x hx
          · rw [List.getElem?_append_right hge'] at hx
            obtain ⟨hi, hx'⟩ := List.getElem?_eq_some_iff.mp hx
            have hi0 : i = n := by simp at hi; omega
            subst hi0
            have : x = (acc, v) := by rw [← hx']; simp
            subst this
            exact ⟨hnear, j, s, τ, hs, not_lt.mp hτs, hvn, hτ⟩)
      refine ⟨out', ?_, h1, h2⟩
      intro fuel hf
      obtain ⟨f, rfl⟩ : ∃ f, fuel = f + 1 := ⟨fuel - 1, by omega⟩
      rw [Fl.rangeLoop, if_pos hend, at?, hs]
      simp only [bind, Except.bind]
      rw [if_neg hτs, hv]
      exact ho f (by omega)

end Loop

/-- C104 (partial): sampling with rounding from a time before the computed maximum time, with representable segment durations and a step that is not too small for the end time:
the call returns; every sample is near the right one; sampling does not stop before the end time or the end of the trajectory (up to the error); and the number of samples
is bounded. (`a₀`, the first sampling time, is the computed start of the segment of `tStart`, as in exact arithmetic: C13.) Missing: small steps, for which it is false
(`C104_refuted`). -/
theorem C104_returns_partial (u : ℝ) (rnd : ℝ → ℝ) (hu : 0 ≤ u) (hr : RelativeError u rnd) (ho : OrderedRounding rnd) (segs : List (Segment ℝ)) (hT : ∀ s ∈ segs, 0 ≤ s.time)
    (hrep : ∀ s ∈ segs, rnd s.time = s.time) (hR : ∀ s ∈ segs, Regular s) (tStart tEnd dt : ℝ) (k : ℕ) (h0 : 0 ≤ tStart) (h0e : tStart ≤ tEnd) (hmax : tStart < Fl.addTimes rnd segs 0)
    (hdt : 0 < dt) (hstep : u * (tEnd + dt) ≤ dt / 2) :
    ∃ j s a₀ out fuel₀, segs[j]? = some s ∧ roundedStart rnd segs j ≤ tStart ∧ tStart < roundedStart rnd segs (j + 1) ∧
      |a₀ - startOf segs j| ≤ ((1 + u) ^ (j + 2) - 1) * (startOf segs j + s.time) ∧
      (∀ fuel ≥ fuel₀, Fl.evaluateRange rnd fuel segs tStart tEnd dt k = .ok out) ∧
      (∀ i x, out[i]? = some x → NearSample u segs tStart dt a₀ (3 * tEnd + 2 * dt + duration segs) k i x) ∧
      out.length * (dt / 2) ≤ tEnd + dt / 2 ∧
      (tEnd ≤ (1 + u) ^ out.length * (a₀ + out.length * dt) ∨
        duration segs < tStart + out.length * dt + ((1 + u) ^ (3 + out.length + segs.length) - 1) * (3 * tEnd + 2 * dt + duration segs)) := by
  have hz : rnd 0 = 0 := by simpa using hr 0
  have hrn : ∀ x, 0 ≤ x → 0 ≤ rnd x := fun x hx => by have := ho.1 hx; rwa [hz] at this
  rcases findSegment_cases rnd tStart segs 0 0 with ⟨j, hj, e, h1, h2⟩ | ⟨e, h2⟩
  swap
  · exfalso
    rw [C103_max_time] at hmax
    rcases Nat.eq_zero_or_pos segs.length with hl | hl
    · rw [List.length_eq_zero_iff.mp hl] at hmax
      simp only [List.map_nil, roundedSum, List.foldl_nil] at hmax
      linarith
    · have := h2 segs.length hl le_rfl
      simp only [List.take_length] at this
      exact absurd hmax (not_lt.mpr this)
  have hs : segs[j]? = some segs[j] := List.getElem?_eq_getElem hj
  have hsm : segs[j] ∈ segs := List.getElem_mem hj
  set s := segs[j] with hsdef
  have hstart : roundedStart rnd segs j ≤ tStart := by
    rcases Nat.eq_zero_or_pos j with rfl | hp
    · simpa [roundedStart, roundedSum] using h0
    · exact h2 j hp le_rfl
  set x := roundedStart rnd segs (j + 1) with hx
  have hprev : 0 ≤ roundedStart rnd segs j := by
    have := fold_mono rnd ho ((segs.take j).map (·.time)) (by
      intro y hy
      obtain ⟨z, hz', rfl⟩ := List.mem_map.mp hy
      exact hT z (List.mem_of_mem_take hz')) 0 hz
    exact this
  have hxe : x = rnd (roundedStart rnd segs j + s.time) := by
    rw [hx]
    unfold roundedStart roundedSum
    rw [List.take_succ_eq_append_getElem hj, List.map_append, List.foldl_append, ← hsdef]
    rfl
  have hxs : s.time ≤ x := by
    rw [hxe, ← hrep s hsm]
    exact ho.1 (by rw [hrep s hsm]; linarith)
  have ha₀ : 0 ≤ rnd (x - s.time) := hrn _ (by linarith)
  have hj0 : 0 ≤ startOf segs j := duration_nonneg _ fun y hy => hT y (List.mem_of_mem_take hy)
  have hs0 := hT s hsm
  have hsum : ((segs.take (j + 1)).map (·.time)).sum = startOf segs j + s.time := by
    rw [List.take_succ_eq_append_getElem hj, List.map_append, List.sum_append, ← hsdef]
    simp [startOf, duration]
  have hdur : startOf segs j + s.time ≤ duration segs := by
    rw [← hsum]
    unfold duration
    conv_rhs => rw [← List.take_append_drop (j + 1) segs, List.map_append, List.sum_append]
    have : 0 ≤ ((segs.drop (j + 1)).map (·.time)).sum := duration_nonneg (segs.drop (j + 1)) fun x hx => hT x (List.mem_of_mem_drop hx)
    linarith
  have hd0 := duration_nonneg segs hT
  have hB0 : 0 ≤ 3 * tEnd + 2 * dt + duration segs := by linarith
  have hτ := C103_local_time u rnd hu hr segs hT j s hs tStart
  rw [abs_of_nonneg h0, ← hx] at hτ
  have hτ' : |rnd (tStart - rnd (x - s.time)) - (tStart + ((0 : ℕ) : ℝ) * dt - startOf segs j)| ≤ ((1 + u) ^ (3 + 0 + j) - 1) * (3 * tEnd + 2 * dt + duration segs) := by
    rw [Nat.cast_zero, zero_mul, add_zero, show 3 + 0 + j = j + 3 by omega]
    refine hτ.trans ?_
    have hu1 : u ≤ (1 + u) ^ (j + 3) - 1 := by
      have : (1 + u) ^ 1 ≤ (1 + u) ^ (j + 3) := pow_le_pow_right₀ (by linarith) (by omega)
      linarith
    have h3 : u * tStart ≤ ((1 + u) ^ (j + 3) - 1) * tStart := mul_le_mul_of_nonneg_right hu1 h0
    have h4 : ((1 + u) ^ (j + 3) - 1) * (startOf segs j + s.time + tStart) ≤ ((1 + u) ^ (j + 3) - 1) * (3 * tEnd + 2 * dt + duration segs) :=
      mul_le_mul_of_nonneg_left (by linarith) (by linarith)
    linarith
  have hanear : |rnd (x - s.time) - startOf segs j| ≤ ((1 + u) ^ (j + 2) - 1) * (startOf segs j + s.time) := by
    have h1 := fold_close hu hr ((segs.take (j + 1)).map (·.time)) (by
      intro x hx
      obtain ⟨y, hy, rfl⟩ := List.mem_map.mp hx
      exact hT y (List.mem_of_mem_take hy)) 0 0 0 le_rfl (by simp)
    have hlen : ((segs.take (j + 1)).map (·.time)).length = j + 1 := by
      rw [List.length_map, List.length_take]; omega
    rw [hsum, hlen, zero_add, zero_add] at h1
    have := round_step hu hr (y := -s.time) h1 (by rw [abs_le]; constructor <;> linarith)
    rw [show startOf segs j + s.time + -s.time = startOf segs j by ring] at this
    exact this
  obtain ⟨N, hN⟩ := exists_nat_ge (tEnd / (dt / 2))
  have hN' : tEnd ≤ N * (dt / 2) := (div_le_iff₀ (by linarith)).mp hN
  obtain ⟨out, hout, hsample, hlen, hlast⟩ := rangeLoop_near (k := k) hu hr hT hR h0 h0e hdt hstep ha₀ le_rfl N hN' (N + segs.length) (rnd (x - s.time)) j
    (rnd (tStart - rnd (x - s.time))) [] hj (by simp) (by simpa using ha₀) (by simp) (by simp; linarith) hτ' (by intro i y hy; simp at hy)
  refine ⟨j, s, rnd (x - s.time), out, N + segs.length, hs, hstart, h1, hanear, ?_, hsample, hlen, hlast⟩
  intro fuel hf
  unfold Fl.evaluateRange
  have hub : ¬(dt = 0 ∨ rnd (rnd (rnd (tEnd - tStart) / dt) + 1) ≤ -1) := by
    rintro (h | h)
    · linarith
    · have := hrn (rnd (rnd (tEnd - tStart) / dt) + 1) (add_nonneg (hrn _ (div_nonneg (hrn _ (by linarith)) hdt.le)) (by norm_num))
      linarith
  rw [if_neg hub, e]
  simp only [Nat.zero_add]
  rw [if_neg (not_lt.mpr h1.le), at?, hs]
  exact hout fuel hf

/-- A trajectory of one segment which lasts `2⁵⁵` seconds. -/
noncomputable def longSegment : List (Segment ℝ) := [⟨2, 2 ^ 55, [[0, 1]]⟩]

theorem nearest_pow54 : nearest 53 (2 ^ 54 + 1) = 2 ^ 54 := by
  have hlog : Int.log 2 ((2 : ℝ) ^ 54 + 1) = 54 := by
    have := Int.log_natCast (R := ℝ) 2 (2 ^ 54 + 1)
    rw [show ((2 ^ 54 + 1 : ℕ) : ℝ) = 2 ^ 54 + 1 by norm_num] at this
    rw [this]; decide +kernel
  have hr : round (((2 : ℝ) ^ 54 + 1) / 4) = 2 ^ 52 := by
    rw [round_eq, Int.floor_eq_iff]; constructor <;> norm_num
  have hpos : (0 : ℝ) ≤ 2 ^ 54 + 1 := by norm_num
  rw [nearest, if_pos hpos, nearestNonneg, hlog]
  rw [show (2 : ℝ) ^ ((54 : ℤ) - (53 : ℕ) + 1) = 4 by norm_num, hr]
  norm_num

/-- C104 (refuted): in double precision, sampling from `2⁵⁴` to `2⁵⁴ + 4` seconds in steps of one second never ends: both times stop growing before the end. -/
theorem C104_refuted : 0 < (1 : ℝ) ∧ (2 : ℝ) ^ 54 + 4 < Fl.addTimes (nearest 53) longSegment 0 ∧ (∀ s ∈ longSegment, nearest 53 s.time = s.time ∧ Regular s) ∧
    ∀ fuel, Fl.evaluateRange (nearest 53) fuel longSegment (2 ^ 54) (2 ^ 54 + 4) 1 0 = .error .hang := by
  obtain ⟨_, ho, hz, _, hfix⟩ := C103_nearest 53 (by norm_num)
  have h55 : nearest 53 ((2 : ℝ) ^ 55) = 2 ^ 55 := (hfix _).mpr ⟨1, 55, by norm_num, by norm_num⟩
  have h54 : nearest 53 ((2 : ℝ) ^ 54) = 2 ^ 54 := (hfix _).mpr ⟨1, 54, by norm_num, by norm_num⟩
  have hadd : Fl.addTimes (nearest 53) longSegment 0 = 2 ^ 55 := by
    simp only [longSegment, Fl.addTimes, zero_add]; exact h55
  have hreg : ∀ s ∈ longSegment, nearest 53 s.time = s.time ∧ Regular s := by
    intro s hs
    simp only [longSegment, List.mem_cons, List.not_mem_nil, or_false] at hs
    subst hs
    exact ⟨h55, by simp, by norm_num⟩
  refine ⟨one_pos, by rw [hadd]; norm_num, hreg, ?_⟩
  intro fuel
  have hloop : ∀ (fuel : ℕ) (acc : ℝ) (out : List (ℝ × List ℝ)), acc ≤ 2 ^ 54 → Fl.rangeLoop (nearest 53) longSegment (2 ^ 54 + 4) 1 0 fuel acc 0 (2 ^ 54) out = .error .hang := by
    intro fuel
    induction fuel with
    | zero => intro acc out h; rw [Fl.rangeLoop, if_pos (by linarith)]
    | succ f ih =>
      intro acc out h
      rw [Fl.rangeLoop, if_pos (by linarith)]
      have hat : at? longSegment 0 = .ok ⟨2, 2 ^ 55, [[0, 1]]⟩ := rfl
      rw [hat]
      simp only [bind, Except.bind]
      rw [if_neg (by norm_num)]
      obtain ⟨v, hv, _⟩ := segment_near (2⁻¹ ^ 53) (nearest 53) (by positivity) (C103_nearest 53 (by norm_num)).1 ⟨2, 2 ^ 55, [[0, 1]]⟩
        (hreg _ (by simp [longSegment])).2 (2 ^ 54) 0
      rw [hv, nearest_pow54]
      refine ih _ _ ?_
      have := ho.1 (show acc + 1 ≤ 2 ^ 54 + 1 by linarith)
      rwa [nearest_pow54] at this
  unfold Fl.evaluateRange
  have hub : ¬((1 : ℝ) = 0 ∨ nearest 53 (nearest 53 (nearest 53 (2 ^ 54 + 4 - 2 ^ 54) / 1) + 1) ≤ -1) := by
    have h4 := nearest_int 53 (by norm_num) 4 (by norm_num)
    have h5 := nearest_int 53 (by norm_num) 5 (by norm_num)
    push_cast at h4 h5
    rw [show (2 : ℝ) ^ 54 + 4 - 2 ^ 54 = 4 by ring, h4, div_one, h4, show (4 : ℝ) + 1 = 5 by norm_num, h5]
    norm_num
  rw [if_neg hub]
  have hfind : Fl.findSegment (nearest 53) (2 ^ 54) longSegment 0 0 = (2 ^ 55, 0) := by
    simp only [longSegment, Fl.findSegment, zero_add]
    rw [h55, if_pos (by norm_num)]
  rw [hfind]
  simp only
  rw [if_neg (by norm_num)]
  have hat : at? longSegment 0 = .ok ⟨2, 2 ^ 55, [[0, 1]]⟩ := rfl
  rw [hat]
  simp only [bind, Except.bind]
  rw [sub_self, hz, sub_zero, h54]
  exact hloop fuel 0 [] (by norm_num)

/-- The hypotheses of `C104_returns_partial` hold in double precision for sampling the two segments from 0.5 to 3 seconds every 0.1 seconds (0.1 itself rounded or not). -/
example : ∃ out fuel₀, ∀ fuel ≥ fuel₀, Fl.evaluateRange (nearest 53) fuel roundingExample (1 / 2) 3 (1 / 10) 0 = .ok out := by
  obtain ⟨h1, h2, _, _, _⟩ := C103_nearest 53 (by norm_num)
  obtain ⟨j, s, a₀, out, f, _, _, _, _, h, _⟩ := C104_returns_partial _ (nearest 53) (by positivity) h1 h2 roundingExample roundingExample_times
    (by
      intro s hs
      simp only [roundingExample, List.mem_cons, List.not_mem_nil, or_false] at hs
      rcases hs with rfl | rfl
      · simpa using nearest_int 53 (by norm_num) 1 (by norm_num)
      · simpa using nearest_int 53 (by norm_num) 2 (by norm_num))
    roundingExample_regular (1 / 2) 3 (1 / 10) 0 (by norm_num) (by norm_num) (by rw [roundingExample_max]; norm_num) (by norm_num) (by norm_num)
  exact ⟨out, f, h⟩

end Verif.Properties
