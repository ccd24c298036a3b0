import Verif.Model.PrintInfo
import Verif.Spec.PrintInfo
import Verif.Lemmas.Print
import Verif.Lemmas.TimingPrint

/-!
# Lemmas: the reader undoes the printer of reports
-/

namespace Verif.Lemmas

open Verif Verif.Spec Verif.Print

variable {K : Type} {num : ℕ → K → List Char} {read : List Char → Option K} {shown : ℕ → K → K}

theorem readWhole_digits (n : ℕ) : readWhole (Nat.toDigits 10 n) = some n := by
  unfold readWhole
  rw [if_pos ⟨Nat.toDigits_ne_nil, List.all_eq_true.mpr (toDigits_isDigit n)⟩, readDigits_toDigits]

theorem digits_not (n : ℕ) (d : Char) (hd : d.isDigit = false) : d ∉ Nat.toDigits 10 n := by
  intro h
  rw [toDigits_isDigit n d h] at hd
  cases hd

theorem labelled_text (label full : String) (k : ℕ) (hf : full.toList = label.toList ++ List.replicate k ' ') (s : List Char) (hs : s.head? ≠ some ' ') :
    labelled label (full.toList ++ s) = some s := by
  unfold labelled
  rw [hf, List.append_assoc, prefix_text]
  simp only [Option.map_some, Option.some.injEq]
  rw [List.dropWhile_append_of_pos (by intro c hc; simp [(List.mem_replicate.mp hc).2])]
  cases s with
  | nil => rfl
  | cons c s =>
    rw [List.dropWhile_cons_of_neg]
    simpa using hs

/-- Words with blanks between them. -/
theorem words_join (ws : List (List Char)) (hne : ws ≠ []) (h : ∀ w ∈ ws, ' ' ∉ w) : wordsOf ([' '].intercalate ws) = ws.filter (· ≠ []) := by
  unfold wordsOf
  rw [List.splitOn_intercalate ' ' h hne]

theorem reason_read (r : Int) : nloptReasons.lookup (returnValueToString r).toList = if -5 ≤ r ∧ r ≤ 6 ∧ r ≠ 0 then some r else none := by
  by_cases h : -5 ≤ r ∧ r ≤ 6
  · obtain ⟨h1, h2⟩ := h
    interval_cases r <;> decide
  · rw [if_neg (by omega)]
    unfold returnValueToString
    rw [if_neg (by omega), if_neg (by omega), if_neg (by omega), if_neg (by omega), if_neg (by omega), if_neg (by omega), if_neg (by omega), if_neg (by omega),
      if_neg (by omega), if_neg (by omega), if_neg (by omega)]
    decide

theorem reason_clean (r : Int) : '\n' ∉ (returnValueToString r).toList ∧ (returnValueToString r).toList.head? ≠ some ' ' := by
  unfold returnValueToString
  repeat' split
  all_goals decide

section
variable (hN : Numerals num read shown)
include hN

theorem numeral_free (n : ℕ) (x : K) (d : Char) (hd : ¬ d.isDigit = true ∧ d ≠ '-' ∧ d ≠ '+' ∧ d ≠ '.' ∧ d ≠ 'e') : d ∉ num n x :=
  fun h => numeral_not hN h d hd rfl

theorem numeral_head (n : ℕ) (x : K) : (num n x).head? ≠ some ' ' := by
  intro h
  exact numeral_free hN n x ' ' (by decide) (List.mem_of_mem_head? h)

omit hN in
theorem digits_head (n : ℕ) : (Nat.toDigits 10 n).head? ≠ some ' ' := fun h => digits_not n ' ' (by decide) (List.mem_of_mem_head? h)

omit hN in
theorem maximum_words (prec : ℕ) (m : Int × Extremum K) : maximumLine num prec m = [' '].intercalate [[], [], [], [],
      (MotionDefines.positionDerivativeToString m.1).toList ++ [':'], num prec m.2.value, "in".toList, "segment".toList, Nat.toDigits 10 m.2.segmentIdx, "and".toList,
      "segment".toList, "time".toList, num prec m.2.time] ++ ['\n'] := by
  unfold maximumLine
  simp [List.intercalate]

theorem maximum_parts (prec : ℕ) (m : Int × Extremum K) : ∀ w ∈ [[], [], [], [],
      (MotionDefines.positionDerivativeToString m.1).toList ++ [':'], num prec m.2.value, "in".toList, "segment".toList, Nat.toDigits 10 m.2.segmentIdx, "and".toList,
      "segment".toList, "time".toList, num prec m.2.time], ' ' ∉ w ∧ '\n' ∉ w := by
  have hv := numeral_free hN prec m.2.value
  have ht := numeral_free hN prec m.2.time
  have hi := digits_not m.2.segmentIdx
  intro w hw
  simp only [List.mem_cons, List.not_mem_nil, or_false] at hw
  rcases hw with rfl | rfl | rfl | rfl | rfl | rfl | rfl | rfl | rfl | rfl | rfl | rfl | rfl
  all_goals first
    | decide
    | exact ⟨hv _ (by decide), hv _ (by decide)⟩
    | exact ⟨ht _ (by decide), ht _ (by decide)⟩
    | exact ⟨hi _ (by decide), hi _ (by decide)⟩
    | exact ⟨fun h => (List.mem_append.mp h).elim (fun h => (name_clean m.1 _ h).1 rfl) (by decide),
        fun h => (List.mem_append.mp h).elim (fun h => (name_clean m.1 _ h).2.1 rfl) (by decide)⟩

/-- The line of a maximum, without its end. -/
def maximumText (num : ℕ → K → List Char) (prec : ℕ) (m : Int × Extremum K) : List Char := [' '].intercalate [[], [], [], [],
      (MotionDefines.positionDerivativeToString m.1).toList ++ [':'], num prec m.2.value, "in".toList, "segment".toList, Nat.toDigits 10 m.2.segmentIdx, "and".toList,
      "segment".toList, "time".toList, num prec m.2.time]

theorem maximumText_clean (prec : ℕ) (m : Int × Extremum K) : '\n' ∉ maximumText num prec m :=
  intercalate_clean _ _ (by decide) _ fun w hw => (maximum_parts hN prec m w hw).2

theorem read_maximum (prec : ℕ) (m : Int × Extremum K) : readMaximum read (maximumText num prec m) =
    some (if 0 ≤ m.1 ∧ m.1 ≤ 4 then some m.1.toNat else none, shown prec m.2.value, m.2.segmentIdx, shown prec m.2.time) := by
  have hw : wordsOf (maximumText num prec m) = [(MotionDefines.positionDerivativeToString m.1).toList ++ [':'], num prec m.2.value, "in".toList, "segment".toList,
      Nat.toDigits 10 m.2.segmentIdx, "and".toList, "segment".toList, "time".toList, num prec m.2.time] := by
    unfold maximumText
    rw [words_join _ (by simp) fun w hw => (maximum_parts hN prec m w hw).1]
    have e1 : num prec m.2.value ≠ [] := hN.nonempty _ _
    have e2 : num prec m.2.time ≠ [] := hN.nonempty _ _
    have e3 : Nat.toDigits 10 m.2.segmentIdx ≠ [] := Nat.toDigits_ne_nil
    simp [e1, e2, e3]
  have hn : namedOrder (((MotionDefines.positionDerivativeToString m.1).toList ++ [':']).takeWhile fun c => decide (c ≠ ':')) =
      if 0 ≤ m.1 ∧ m.1 ≤ 4 then some m.1.toNat else none := by
    rw [(takeWhile_clean (p := fun c => decide (c ≠ ':')) _ [] ':' (fun c hc => by simpa using (name_clean m.1 c hc).2.2) (by decide)).1]
    split
    · rename_i h
      exact name_order _ h.1 h.2
    · exact name_invalid _ (by assumption)
  unfold readMaximum
  rw [hw]
  simp only [and_self, if_true, hN.reads, readWhole_digits]
  exact congrArg (fun o => some (o, shown prec m.2.value, m.2.segmentIdx, shown prec m.2.time)) hn

/-- The lines of a report. -/
def infoLines (num : ℕ → K → List Char) (prec : ℕ) (v : InfoReport K) : List (List Char) :=
  "--- optimization info ---".toList ::
  ("  optimization time:     ".toList ++ num prec v.optimizationTime) ::
  ("  n_iterations:          ".toList ++ Nat.toDigits 10 v.nIterations) ::
  ("  stopping reason:       ".toList ++ (returnValueToString v.stoppingReason).toList) ::
  ("  cost trajectory:       ".toList ++ num prec v.costTrajectory) ::
  ("  cost time:             ".toList ++ num prec v.costTime) ::
  ("  cost soft constraints: ".toList ++ num prec v.costSoft) ::
  "  maxima: ".toList :: v.maxima.map (maximumText num prec)

omit hN in
theorem printInfo_lines (prec : ℕ) (v : InfoReport K) : printInfo num prec v = (infoLines num prec v).flatMap (· ++ ['\n']) := by
  have h : v.maxima.flatMap (maximumLine num prec) = (v.maxima.map (maximumText num prec)).flatMap (· ++ ['\n']) := by
    rw [List.flatMap_map]
    exact flatMap_congr_mem fun m _ => maximum_words prec m
  unfold printInfo infoLines
  simp only [List.flatMap_cons, h, List.append_assoc]

theorem infoLines_clean (prec : ℕ) (v : InfoReport K) : ∀ l ∈ infoLines num prec v, '\n' ∉ l := by
  have hn := fun x => numeral_free hN prec x '\n' (by decide)
  have hd := digits_not v.nIterations '\n' (by decide)
  have hr := (reason_clean v.stoppingReason).1
  intro l hl
  simp only [infoLines, List.mem_cons, List.mem_map] at hl
  rcases hl with rfl | rfl | rfl | rfl | rfl | rfl | rfl | rfl | ⟨m, _, rfl⟩
  · decide
  · exact fun h => (List.mem_append.mp h).elim (by decide) (hn _)
  · exact fun h => (List.mem_append.mp h).elim (by decide) hd
  · exact fun h => (List.mem_append.mp h).elim (by decide) hr
  · exact fun h => (List.mem_append.mp h).elim (by decide) (hn _)
  · exact fun h => (List.mem_append.mp h).elim (by decide) (hn _)
  · exact fun h => (List.mem_append.mp h).elim (by decide) (hn _)
  · decide
  · exact maximumText_clean hN prec m

theorem read_infoLines (prec : ℕ) (v : InfoReport K) : readReport read (printInfo num prec v) = some
    { time := shown prec v.optimizationTime, iterations := v.nIterations
      reason := if -5 ≤ v.stoppingReason ∧ v.stoppingReason ≤ 6 ∧ v.stoppingReason ≠ 0 then some v.stoppingReason else none
      costTrajectory := shown prec v.costTrajectory, costTime := shown prec v.costTime, costSoft := shown prec v.costSoft
      maxima := v.maxima.map fun m => (if 0 ≤ m.1 ∧ m.1 ≤ 4 then some m.1.toNat else none, shown prec m.2.value, m.2.segmentIdx, shown prec m.2.time) } := by
  have e1 : labelled "  optimization time:" ("  optimization time:     ".toList ++ num prec v.optimizationTime) = some (num prec v.optimizationTime) :=
    labelled_text _ _ 5 (by decide) _ (numeral_head hN _ _)
  have e2 : labelled "  n_iterations:" ("  n_iterations:          ".toList ++ Nat.toDigits 10 v.nIterations) = some (Nat.toDigits 10 v.nIterations) :=
    labelled_text _ _ 10 (by decide) _ (digits_head _)
  have e3 : labelled "  stopping reason:" ("  stopping reason:       ".toList ++ (returnValueToString v.stoppingReason).toList) =
      some (returnValueToString v.stoppingReason).toList := labelled_text _ _ 7 (by decide) _ (reason_clean _).2
  have e4 : labelled "  cost trajectory:" ("  cost trajectory:       ".toList ++ num prec v.costTrajectory) = some (num prec v.costTrajectory) :=
    labelled_text _ _ 7 (by decide) _ (numeral_head hN _ _)
  have e5 : labelled "  cost time:" ("  cost time:             ".toList ++ num prec v.costTime) = some (num prec v.costTime) :=
    labelled_text _ _ 13 (by decide) _ (numeral_head hN _ _)
  have e6 : labelled "  cost soft constraints:" ("  cost soft constraints: ".toList ++ num prec v.costSoft) = some (num prec v.costSoft) :=
    labelled_text _ _ 1 (by decide) _ (numeral_head hN _ _)
  unfold readReport
  rw [printInfo_lines, linesOf_pieces _ (infoLines_clean hN prec v)]
  simp only [infoLines, and_self, if_true, e1, e2, e3, e4, e5, e6, Option.bind_some, hN.reads, readWhole_digits]
  rw [List.mapM_map, some_mapM (readMaximum read ∘ maximumText num prec) _ _ fun m _ => read_maximum hN prec m, ← reason_read]
  rfl

theorem read_extremum_text (prec : ℕ) (e : Extremum K) : readExtremum read (printExtremum num prec e) =
    some (shown prec e.time, shown prec e.value, e.segmentIdx) := by
  have hv := numeral_free hN prec e.value
  have ht := numeral_free hN prec e.time
  have hi := digits_not e.segmentIdx
  have h1 : printExtremum num prec e = [[' '].intercalate ["time:".toList, num prec e.time ++ [','], "value:".toList, num prec e.value ++ [','], "segment".toList,
      "idx:".toList, Nat.toDigits 10 e.segmentIdx]].flatMap (· ++ ['\n']) := by
    unfold printExtremum
    simp [List.intercalate]
  have h2 : ∀ w ∈ ["time:".toList, num prec e.time ++ [','], "value:".toList, num prec e.value ++ [','], "segment".toList,
      "idx:".toList, Nat.toDigits 10 e.segmentIdx], ' ' ∉ w ∧ '\n' ∉ w := by
    intro w hw
    simp only [List.mem_cons, List.not_mem_nil, or_false] at hw
    rcases hw with rfl | rfl | rfl | rfl | rfl | rfl | rfl
    all_goals first
      | decide
      | exact ⟨hi _ (by decide), hi _ (by decide)⟩
      | exact ⟨fun h => (List.mem_append.mp h).elim (hv _ (by decide)) (by decide), fun h => (List.mem_append.mp h).elim (hv _ (by decide)) (by decide)⟩
      | exact ⟨fun h => (List.mem_append.mp h).elim (ht _ (by decide)) (by decide), fun h => (List.mem_append.mp h).elim (ht _ (by decide)) (by decide)⟩
  have h3 : ∀ x, ((num prec x).filter fun c => !decide (c = ',')) = num prec x := fun x =>
    List.filter_eq_self.mpr fun c hc => by simpa using numeral_not hN hc ',' (by decide)
  unfold readExtremum
  rw [h1, linesOf_pieces _ (by
    intro l hl
    rw [List.mem_singleton.mp hl]
    exact intercalate_clean _ _ (by decide) _ fun w hw => (h2 w hw).2)]
  rw [List.map_cons, List.map_nil, words_join _ (by simp) fun w hw => (h2 w hw).1]
  have e3 : Nat.toDigits 10 e.segmentIdx ≠ [] := Nat.toDigits_ne_nil
  simp [e3, readWhole_digits, h3, hN.reads]

end

end Verif.Lemmas
