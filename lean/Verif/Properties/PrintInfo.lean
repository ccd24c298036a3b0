import Verif.Lemmas.PrintInfo
import Verif.Properties.Print

/-!
# C166: the printed report of an optimisation shows what it holds
-/

namespace Verif.Properties

open Verif Verif.Spec Verif.Lemmas Verif.Print

section
variable {K : Type} {num : ℕ → K → List Char} {read : List Char → Option K} {shown : ℕ → K → K}

/-- C166: whoever reads a printed report finds the duration, the number of iterations, the reason for stopping if NLopt knows it, the three costs, and for every
maximum the derivative (if it is one with a name), the value, the segment and the time in it; numbers to the precision of the stream. -/
theorem C166_report (hN : Numerals num read shown) (prec : ℕ) (v : InfoReport K) : readReport read (printInfo num prec v) = some
    { time := shown prec v.optimizationTime, iterations := v.nIterations
      reason := if -5 ≤ v.stoppingReason ∧ v.stoppingReason ≤ 6 ∧ v.stoppingReason ≠ 0 then some v.stoppingReason else none
      costTrajectory := shown prec v.costTrajectory, costTime := shown prec v.costTime, costSoft := shown prec v.costSoft
      maxima := v.maxima.map fun m => (if 0 ≤ m.1 ∧ m.1 ≤ 4 then some m.1.toNat else none, shown prec m.2.value, m.2.segmentIdx, shown prec m.2.time) } :=
  read_infoLines hN prec v

/-- C166: whoever reads a printed extremum finds its time, its value and its segment. -/
theorem C166_extremum (hN : Numerals num read shown) (prec : ℕ) (e : Extremum K) :
    readExtremum read (printExtremum num prec e) = some (shown prec e.time, shown prec e.value, e.segmentIdx) :=
  read_extremum_text hN prec e

/-- C166: two reports of known results that name their derivatives and are printed alike differ in nothing but what rounding the numbers hides. -/
theorem C166_alike (hN : Numerals num read shown) (prec : ℕ) (v w : InfoReport K) (hv : v.stoppingReason ∈ nloptReasons.map Prod.snd)
    (hvm : ∀ m ∈ v.maxima, 0 ≤ m.1 ∧ m.1 ≤ 4) (hwm : ∀ m ∈ w.maxima, 0 ≤ m.1 ∧ m.1 ≤ 4)
    (h : printInfo num prec v = printInfo num prec w) :
    v.nIterations = w.nIterations ∧ v.stoppingReason = w.stoppingReason ∧ shown prec v.optimizationTime = shown prec w.optimizationTime ∧
    shown prec v.costTrajectory = shown prec w.costTrajectory ∧ shown prec v.costTime = shown prec w.costTime ∧ shown prec v.costSoft = shown prec w.costSoft ∧
    List.Forall₂ (fun m m' => m.1 = m'.1 ∧ shown prec m.2.value = shown prec m'.2.value ∧ m.2.segmentIdx = m'.2.segmentIdx ∧
      shown prec m.2.time = shown prec m'.2.time) v.maxima w.maxima := by
  have e := (C166_report hN prec v).symm.trans ((congrArg _ h).trans (C166_report hN prec w))
  simp only [Option.some.injEq, ReportRead.mk.injEq] at e
  obtain ⟨e1, e2, e3, e4, e5, e6, e7⟩ := e
  have hr : v.stoppingReason = w.stoppingReason := by
    have h1 : -5 ≤ v.stoppingReason ∧ v.stoppingReason ≤ 6 ∧ v.stoppingReason ≠ 0 := by
      simp only [nloptReasons, List.map_cons, List.map_nil, List.mem_cons, List.not_mem_nil, or_false] at hv
      omega
    rw [if_pos h1] at e3
    split at e3
    · exact Option.some.inj e3
    · cases e3
  refine ⟨e2, hr, e1, e4, e5, e6, ?_⟩
  clear h e1 e2 e3 e4 e5 e6 hr hv
  generalize v.maxima = a at *
  generalize w.maxima = b at *
  induction a generalizing b with
  | nil => cases b with
    | nil => exact .nil
    | cons y b => cases e7
  | cons x a ih => cases b with
    | nil => cases e7
    | cons y b =>
      rw [List.map_cons, List.map_cons] at e7
      obtain ⟨g1, g2⟩ := List.cons.inj e7
      rw [if_pos (hvm x List.mem_cons_self), if_pos (hwm y List.mem_cons_self)] at g1
      simp only [Prod.mk.injEq, Option.some.injEq] at g1
      have h1 := hvm x List.mem_cons_self
      have h2 := hwm y List.mem_cons_self
      refine .cons ⟨by omega, g1.2.1, g1.2.2.1, g1.2.2.2⟩ (ih (fun m hm => hvm m (List.mem_cons_of_mem _ hm)) b (fun m hm => hwm m (List.mem_cons_of_mem _ hm)) g2)

end

/-! ## The hypotheses are met -/

/-- A report and its text, with whole numbers. -/
example : printInfo (K := ℕ) (fun _ => Nat.toDigits 10) 6 ⟨12, 5, 30, 40, 2, 1, [(1, ⟨3, 7, 0⟩), (2, ⟨4, 9, 1⟩)]⟩ =
    ("--- optimization info ---\n  optimization time:     1\n  n_iterations:          12\n  stopping reason:       MAXEVAL_REACHED\n" ++
     "  cost trajectory:       30\n  cost time:             40\n  cost soft constraints: 2\n  maxima: \n" ++
     "    velocity: 7 in segment 0 and segment time 3\n    acceleration: 9 in segment 1 and segment time 4\n").toList := by decide +kernel

/-- An extremum and its text. -/
example : printExtremum (K := ℕ) (fun _ => Nat.toDigits 10) 6 ⟨3, 7, 10⟩ = "time: 3, value: 7, segment idx: 10\n".toList := by decide +kernel

/-- A report that meets the hypotheses of `C166_alike`. -/
example : (5 : Int) ∈ nloptReasons.map Prod.snd ∧ ∀ m ∈ ([(1, ⟨3, 7, 0⟩), (2, ⟨4, 9, 1⟩)] : List (Int × Extremum ℚ)), 0 ≤ m.1 ∧ m.1 ≤ 4 :=
  ⟨by decide, by simp⟩

/-- Decimals can be read back, so the reports can. -/
example (rnd : ℚ → ℕ) (v : InfoReport ℚ) : ∃ r, readReport (readSigned (K := ℚ)) (printInfo (fun _ => Timing.formatSeconds rnd) 6 v) = some r :=
  ⟨_, C166_report (decimals_numerals rnd) 6 v⟩

end Verif.Properties
