import Mathlib.Tactic.FieldSimp
import Mathlib.Tactic.Linarith
import Mathlib.Tactic.Positivity
import Mathlib.Tactic.NormNum
import Verif.Lemmas.Trajectory
import Verif.Lemmas.Sampling
import Verif.Spec.IO

set_option linter.unusedSectionVars false

namespace Verif.IO

open Verif.Spec

variable {K : Type} [Field K] [LinearOrder K] [IsStrictOrderedRing K] [FloorRing K]

/-- The first outcome is a value. (Proved so that it is used as a rewriting step.) -/
theorem ok_bind {α β : Type} (a : α) (f : α → Res β) : ((Except.ok a : Res α) >>= f) = f a := id rfl

theorem res_pure {α : Type} (a : α) : (pure a : Res α) = .ok a := id rfl

theorem segmentsLoop_succ (y : Yaml K) (i n : ℕ) : segmentsLoop y i (n + 1) = (do
    match ← segmentFromYaml (← y.idx i) with
    | none => return none
    | some s =>
      match ← segmentsLoop y (i + 1) n with
      | none => return none
      | some ss => return some (s :: ss)) := id rfl

theorem fileSegments_succ (y : Yaml K) (i n : ℕ) : fileSegments y i (n + 1) = (do
    match ← segmentFromTree (← y.idx i) with
    | none => return (false, [])
    | some s =>
      let r ← fileSegments y (i + 1) n
      return (r.1, s :: r.2)) := id rfl

theorem fileCoefficients_succ (N : ℕ) (y : Yaml K) (j n : ℕ) : fileCoefficients N y j (n + 1) = (do
    let row ← y.idx j
    if (← row.size) ≠ N then return none
    let c ← (List.range N).mapM fun k => do (← row.idx k).asDouble
    match ← fileCoefficients N y (j + 1) n with
    | none => return none
    | some cs => return some (c :: cs)) := id rfl

theorem idx_seq (l : List (Yaml K)) (i : ℕ) : (Yaml.seq l).idx i = .ok (l.getD i .undefined) := id rfl

/-- The duration in nanoseconds. -/
def nsOf (s : Segment K) : ℕ := ⌊s.time * 1000000000⌋.toNat

theorem getTimeNSec_ok (s : Segment K) (h : Storable s) : getTimeNSec s = .ok (nsOf s) := by
  unfold getTimeNSec nsOf
  rw [if_neg]
  rw [not_or]
  have h0 := h.nonneg
  refine ⟨by rw [not_le]; linarith [mul_nonneg h0 (by norm_num : (0 : K) ≤ 1000000000)], by rw [not_le]; exact h.fits⟩

theorem readsBack_ns (s : Segment K) (h : Storable s) : ReadsBackAs s (setTimeNSec s (nsOf s)) := by
  have h9 : (0 : K) < 1000000000 := by norm_num
  have hn : 0 ≤ ⌊s.time * 1000000000⌋ := Int.floor_nonneg.mpr (mul_nonneg h.nonneg h9.le)
  have e : ((nsOf s : ℕ) : K) = (⌊s.time * 1000000000⌋ : K) := by
    have := Int.toNat_of_nonneg hn
    rw [nsOf]
    exact_mod_cast congrArg (Int.cast : ℤ → K) this
  refine ⟨rfl, rfl, ⟨_, rfl⟩, ?_, ?_⟩
  · simp only [setTimeNSec]
    rw [e, div_le_iff₀ h9]
    exact Int.floor_le _
  · simp only [setTimeNSec]
    rw [e, ← add_div, lt_div_iff₀ h9]
    exact Int.lt_floor_add_one _

theorem ns_lt (s : Segment K) (h : Storable s) : nsOf s < 2 ^ 64 := by
  have h9 : (0 : K) < 1000000000 := by norm_num
  rw [nsOf, Int.toNat_lt' (by norm_num), Int.floor_lt]
  have := h.fits
  exact_mod_cast this

theorem drop_cons_get {α : Type*} {l : List α} {i : ℕ} {a : α} {r : List α} (h : l.drop i = a :: r) (d : α) :
    l.getD i d = a ∧ l.drop (i + 1) = r := by
  constructor
  · have h1 : l[i]? = some a := by
      have := congrArg (fun m => m[0]?) h
      simpa [List.getElem?_drop] using this
    rw [List.getD_eq_getElem?_getD, h1]; rfl
  · rw [← List.tail_drop, h]; rfl

theorem mapM_seq_double (c : Poly K) :
    ((List.range c.length).mapM fun i => do (← (Yaml.seq (c.map Yaml.real)).idx i).asDouble) = (.ok c : Res (Poly K)) := by
  rw [Sampling.mapM_range_ok c.length _ (fun i => c.getD i 0)]
  · congr 1
    apply List.ext_getElem
    · simp
    · intro n h1 h2
      simp [List.getD_eq_getElem?_getD, h2]
  · intro i hi
    simp only [Yaml.idx, bind, Except.bind]
    rw [List.getD_eq_getElem?_getD, List.getD_eq_getElem?_getD]
    simp [hi, Yaml.asDouble]

theorem coefficients_back (c : Poly K) : coefficientsFromYaml (coefficientsToYaml c) = .ok (some c) := by
  have h := mapM_seq_double c
  simp only [coefficientsFromYaml, coefficientsToYaml, Yaml.isSequence, Yaml.size, bind, Except.bind, pure, Except.pure,
    List.length_map] at h ⊢
  simp only [not_true_eq_false, if_false]
  rw [h]

theorem coefficientsLoop_ok (l : List (Yaml K)) (ps : List (Poly K)) (i : ℕ) (h : l.drop i = ps.map coefficientsToYaml) :
    coefficientsLoop (.seq l) i ps.length = .ok (some ps) := by
  induction ps generalizing i with
  | nil => rfl
  | cons p ps ih =>
    obtain ⟨h1, h2⟩ := drop_cons_get h Yaml.undefined
    simp only [List.length_cons, coefficientsLoop, Yaml.idx, bind, Except.bind, pure, Except.pure, h1, coefficients_back,
      ih (i + 1) h2]

theorem asInt_ok (n : ℕ) (h : n < 2 ^ 31) : (Yaml.int (n : ℤ) : Yaml K).asInt = .ok (n : ℤ) := by
  have h' : -2 ^ 31 ≤ (n : ℤ) ∧ (n : ℤ) < 2 ^ 31 := by constructor <;> omega
  simp only [Yaml.asInt]
  rw [if_pos h']

theorem asUInt64_ok (n : ℕ) (h : n < 2 ^ 64) : (Yaml.int (n : ℤ) : Yaml K).asUInt64 = .ok n := by
  have h' : 0 ≤ (n : ℤ) ∧ (n : ℤ) < 2 ^ 64 := by constructor <;> omega
  simp only [Yaml.asUInt64]
  rw [if_pos h', Int.toNat_natCast]

theorem makeSegment_ok (N D : ℕ) : (makeSegment (N : ℤ) (D : ℤ) : Res (Segment K)) = .ok (Segment.mk' N D) := by
  unfold makeSegment
  rw [if_neg (by omega), if_neg (by omega)]
  simp

theorem mk'_D (N D : ℕ) : (Segment.mk' N D : Segment K).D = D := by simp [Segment.D, Segment.mk']

/-- The document for one segment. -/
def treeOf (N D n : ℕ) (ps : List (Poly K)) : Yaml K :=
  .map [("N", .int N), ("D", .int D), ("time", .int n), ("coefficients", .seq (ps.map coefficientsToYaml))]

/-- The document for one segment. -/
def tree (s : Segment K) : Yaml K := treeOf s.N s.D (nsOf s) s.polys

theorem treeOf_N (N D n : ℕ) (ps : List (Poly K)) : (treeOf N D n ps).get "N" = .ok (.int N) := id rfl
theorem treeOf_D (N D n : ℕ) (ps : List (Poly K)) : (treeOf N D n ps).get "D" = .ok (.int D) := id rfl
theorem treeOf_time (N D n : ℕ) (ps : List (Poly K)) : (treeOf N D n ps).get "time" = .ok (.int n) := id rfl
theorem treeOf_coefficients (N D n : ℕ) (ps : List (Poly K)) :
    (treeOf N D n ps).get "coefficients" = .ok (.seq (ps.map coefficientsToYaml)) := id rfl

/-- What is read for a segment that was written. -/
def back (s : Segment K) : Segment K := setTimeNSec s (nsOf s)

theorem segmentToYaml_ok (s : Segment K) (h : Storable s) (hD : s.polys ≠ []) :
    segmentToYaml s = .ok (tree s) := by
  simp only [segmentToYaml, getTimeNSec_ok s h, bind, Except.bind, pure, Except.pure, if_neg hD]
  rfl

theorem segmentFromYaml_ok (s : Segment K) (h : Storable s) :
    segmentFromYaml (tree s) = .ok (some (back s)) := by
  have h1 := coefficientsLoop_ok (s.polys.map coefficientsToYaml) s.polys 0 (by simp)
  have hD : s.D < 2 ^ 31 := h.dimensions
  unfold tree segmentFromYaml
  simp only [treeOf_N, treeOf_D, treeOf_time, treeOf_coefficients, ok_bind, res_pure, Yaml.isDefined, Yaml.isSequence,
    asInt_ok s.N h.coefficients, asInt_ok s.D hD, makeSegment_ok, mk'_D, not_true_eq_false, if_false]
  rw [show s.D = s.polys.length from rfl, h1]
  simp only [asUInt64_ok _ (ns_lt s h), ok_bind]
  simp only [back, setTimeNSec, Segment.mk']

theorem segmentsLoop_ok (l : List (Yaml K)) (ss : List (Segment K)) (hs : ∀ s ∈ ss, Storable s) (i : ℕ)
    (h : l.drop i = ss.map tree) :
    segmentsLoop (.seq l) i ss.length = .ok (some (ss.map back)) := by
  induction ss generalizing i with
  | nil => rfl
  | cons s ss ih =>
    obtain ⟨h1, h2⟩ := drop_cons_get h Yaml.undefined
    simp only [List.length_cons, segmentsLoop_succ, idx_seq, ok_bind, res_pure, h1,
      segmentFromYaml_ok s (hs s (by simp)), ih (fun t ht => hs t (by simp [ht])) (i + 1) h2, List.map_cons]

theorem yaml_back (segs : List (Segment K)) (hne : segs ≠ []) (hs : ∀ s ∈ segs, Storable s) (hD : ∀ s ∈ segs, s.polys ≠ []) :
    ∃ l, segmentsToYaml segs = .ok (.map [("segments", l)]) ∧ segmentsFromYaml l = .ok (some (segs.map back)) := by
  refine ⟨.seq (segs.map tree), ?_, ?_⟩
  · rw [segmentsToYaml, mapM_ok _ _ segs fun s h => segmentToYaml_ok s (hs s h) (hD s h)]
    simp only [bind, Except.bind, pure, Except.pure, if_neg hne]
  · simp only [segmentsFromYaml, Yaml.isSequence, Yaml.size, bind, Except.bind, pure, Except.pure, List.length_map]
    simp only [not_true_eq_false, if_false]
    exact segmentsLoop_ok _ segs hs 0 (by simp)

/-! ## Files -/

theorem firstCoefficients_ok (c : Poly K) : firstCoefficients c.length c = .ok (.seq (c.map .real)) := by
  have h : ((List.range c.length).mapM fun j => at? c j) = (.ok c : Res (Poly K)) := by
    rw [Sampling.mapM_range_ok c.length _ (fun i => c.getD i 0)]
    · congr 1
      apply List.ext_getElem
      · simp
      · intro n h1 h2
        simp [List.getD_eq_getElem?_getD, h2]
    · intro i hi
      simp [at?, List.getD_eq_getElem?_getD, hi]
  simp only [firstCoefficients, h, bind, Except.bind, pure, Except.pure]

theorem segmentToTree_ok (s : Segment K) (h : Storable s) (hd : Declared s) :
    segmentToTree s = .ok (tree s) := by
  simp only [segmentToTree, getTimeNSec_ok s h, bind, Except.bind, pure, Except.pure]
  rw [mapM_ok _ coefficientsToYaml s.polys fun p hp => by rw [← hd p hp, firstCoefficients_ok]; rfl]
  rfl

theorem fileCoefficients_ok (N : ℕ) (l : List (Yaml K)) (ps : List (Poly K)) (hN : ∀ p ∈ ps, p.length = N) (i : ℕ)
    (h : l.drop i = ps.map coefficientsToYaml) : fileCoefficients N (.seq l) i ps.length = .ok (some ps) := by
  induction ps generalizing i with
  | nil => rfl
  | cons p ps ih =>
    obtain ⟨h1, h2⟩ := drop_cons_get h Yaml.undefined
    have hp := hN p (by simp)
    have hm := mapM_seq_double p
    simp only [Yaml.idx, bind, Except.bind] at hm
    simp only [List.length_cons, fileCoefficients, Yaml.idx, bind, Except.bind, pure, Except.pure, h1,
      ih (fun q hq => hN q (by simp [hq])) (i + 1) h2]
    simp only [coefficientsToYaml, Yaml.size, List.length_map, hp, ne_eq, not_true_eq_false, if_false]
    rw [← hp, hm]

theorem segmentFromTree_ok (s : Segment K) (h : Storable s) (hd : Declared s) :
    segmentFromTree (tree s) = .ok (some (back s)) := by
  have h1 := fileCoefficients_ok s.N (s.polys.map coefficientsToYaml) s.polys hd 0 (by simp)
  have hD : s.D < 2 ^ 31 := h.dimensions
  have hN : (Segment.mk' s.N s.D : Segment K).N = s.N := rfl
  unfold tree segmentFromTree
  simp only [treeOf_N, treeOf_D, treeOf_time, treeOf_coefficients, ok_bind, res_pure, Yaml.isDefined,
    asInt_ok s.N h.coefficients, asInt_ok s.D hD, makeSegment_ok, mk'_D, asUInt64_ok _ (ns_lt s h), Yaml.size,
    List.length_map, and_self, if_true, hN]
  rw [show s.D = s.polys.length from rfl, h1]
  simp only [ne_eq, not_true_eq_false, if_false, ok_bind]
  simp only [back, setTimeNSec]

theorem fileSegments_ok (l : List (Yaml K)) (ss : List (Segment K)) (hs : ∀ s ∈ ss, Storable s) (hd : ∀ s ∈ ss, Declared s) (i : ℕ)
    (h : l.drop i = ss.map tree) :
    fileSegments (.seq l) i ss.length = .ok (true, ss.map back) := by
  induction ss generalizing i with
  | nil => rfl
  | cons s ss ih =>
    obtain ⟨h1, h2⟩ := drop_cons_get h Yaml.undefined
    simp only [List.length_cons, fileSegments_succ, idx_seq, ok_bind, res_pure, h1,
      segmentFromTree_ok s (hs s (by simp)) (hd s (by simp)), ih (fun t ht => hs t (by simp [ht])) (fun t ht => hd t (by simp [ht]))
      (i + 1) h2, List.map_cons]

theorem file_back (segs : List (Segment K)) (hs : ∀ s ∈ segs, Storable s) (hd : ∀ s ∈ segs, Declared s) :
    ∃ doc, (∀ canOpen, segmentsToFile canOpen segs = .ok (if canOpen then (true, some doc) else (false, none))) ∧
      ∀ old, segmentsFromFile (some doc) old = .ok (true, segs.map back) := by
  refine ⟨.map [("segments", .seq (segs.map tree))], fun canOpen => ?_, fun old => ?_⟩
  · rw [segmentsToFile, mapM_ok _ _ segs fun s h => segmentToTree_ok s (hs s h) (hd s h)]
    simp only [bind, Except.bind, pure, Except.pure]
  · simp only [segmentsFromFile, Yaml.get, List.lookup, bind, Except.bind, String.reduceBEq, Option.getD, Yaml.isDefined, if_true,
      Yaml.size, List.length_map]
    exact fileSegments_ok _ segs hs hd 0 (by simp)

/-! ## Setting the segments -/

theorem addTimes_ok (D N : ℕ) (segs : List (Segment K)) (h : ∀ s ∈ segs, s.polys.length = D ∧ s.N = N) (acc : K) :
    Trajectory.addTimes D N segs acc = .ok (acc + duration segs) := by
  induction segs generalizing acc with
  | nil => simp [Trajectory.addTimes]
  | cons s ss ih =>
    obtain ⟨h1, h2⟩ := h s (by simp)
    rw [Trajectory.addTimes, if_neg (by simpa [Segment.D] using h1), if_neg (by simpa using h2),
      ih (fun t ht => h t (by simp [ht])), duration_cons, add_assoc]

theorem setSegments_ok (D N : ℕ) (segs : List (Segment K)) (hne : segs ≠ []) (h : ∀ s ∈ segs, s.polys.length = D ∧ s.N = N) :
    Trajectory.setSegments segs = .ok ⟨D, N, duration segs, segs⟩ := by
  cases segs with
  | nil => exact absurd rfl hne
  | cons s ss =>
    obtain ⟨h1, h2⟩ := h s (by simp)
    have h1' : s.D = D := h1
    simp only [Trajectory.setSegments, Trajectory.addSegments, bind, Except.bind, pure, Except.pure, h1', h2,
      addTimes_ok D N (s :: ss) h 0, zero_add, List.nil_append]

/-! ## The table -/

theorem writeSegmentTimes_ok (ss : List (Segment ℝ)) (j : ℕ) (acc : ℝ) (table : List (List ℝ)) (h : j + ss.length ≤ table.length) :
    ∃ table', writeSegmentTimes ss j acc table = .ok table' ∧ table'.length = table.length ∧
      (∀ n, n < j ∨ j + ss.length ≤ n → table'[n]? = table[n]?) ∧
      ∀ n < ss.length, ∀ row, table[j + n]? = some row → table'[j + n]? = some (row.set 26 (acc + duration (ss.take (n + 1)))) := by
  induction ss generalizing j acc table with
  | nil => exact ⟨table, rfl, rfl, fun _ _ => rfl, fun n hn => absurd hn (by simp)⟩
  | cons s ss ih =>
    simp only [List.length_cons] at h
    have hj : j < table.length := by omega
    have hat : at? table j = .ok table[j] := by simp [at?, hj]
    obtain ⟨t', h1, h2, h3, h4⟩ := ih (j + 1) (acc + s.time) (table.set j (table[j].set 26 (acc + s.time))) (by simp; omega)
    refine ⟨t', ?_, by simpa using h2, ?_, ?_⟩
    · rw [writeSegmentTimes, hat]; exact h1
    · intro n hn
      simp only [List.length_cons] at hn
      rw [h3 n (by omega), List.getElem?_set_ne (by omega)]
    · intro n hn row hrow
      cases n with
      | zero =>
        rw [Nat.add_zero, h3 j (by omega), List.getElem?_set_self hj]
        have : table[j] = row := by
          rw [Nat.add_zero, List.getElem?_eq_getElem hj] at hrow
          exact Option.some.inj hrow
        simp [this]
      | succ n =>
        have := h4 n (by simpa using hn) row (by rw [List.getElem?_set_ne (by omega), ← hrow]; congr 1; omega)
        rw [show j + (n + 1) = j + 1 + n by omega, this, List.take_succ_cons, duration_cons, add_assoc]

theorem writeSegmentTimes_ub (ss : List (Segment ℝ)) (j : ℕ) (acc : ℝ) (table : List (List ℝ)) (h : table.length < j + ss.length)
    (hj : j ≤ table.length) : writeSegmentTimes ss j acc table = .error .ub := by
  induction ss generalizing j acc table with
  | nil => simp at h; omega
  | cons s ss ih =>
    simp only [List.length_cons] at h
    rw [writeSegmentTimes]
    by_cases hlt : j < table.length
    · have hat : at? table j = .ok table[j] := by simp [at?, hlt]
      rw [hat]
      exact ih (j + 1) _ _ (by simp; omega) (by simp; omega)
    · have hat : at? table j = .error .ub := by simp [at?, Nat.le_of_not_lt hlt]
      rw [hat]; rfl

theorem tableRow_ok (st : Mav.TrajectoryPoint) (x : ℝ) : TableRow st x ((tableRow st).set 26 x) := by
  constructor <;> first | rfl | (intro i; fin_cases i <;> rfl) | exact ⟨rfl, rfl, rfl, rfl⟩

theorem tableRow_zero (st : Mav.TrajectoryPoint) : TableRow st 0 (tableRow st) := by
  constructor <;> first | rfl | (intro i; fin_cases i <;> rfl) | exact ⟨rfl, rfl, rfl, rfl⟩

end Verif.IO
