import Verif.Lemmas.TimingPrint
import Mathlib.Data.Real.Sqrt
import Mathlib.Algebra.Order.Floor.Semiring

/-!
# C157: the printed table of the timers

`printLine`, `print`: `Model/TimingPrint.lean`; what a reader takes from the table: `Spec/TimingPrint.lean`.
-/

namespace Verif.Properties

open Verif Verif.Spec Verif.Lemmas Verif.Timing

variable {K : Type} [Field K] [LinearOrder K] [IsStrictOrderedRing K]

theorem sinceReset_append (cs : List (TimingCall K)) (c : TimingCall K) :
    sinceReset (cs ++ [c]) = match c with | .reset => [] | c => sinceReset cs ++ [c] := by
  unfold sinceReset
  rw [List.foldl_append, List.foldl_cons, List.foldl_nil]
  cases c <;> rfl

/-- The tags of the registry are those asked for since the last reset. -/
theorem tags_since_reset (cs : List (TimingCall K)) (r : Registry K) (hr : runCalls cs = .ok r) (t : String) :
    t ∈ r.tags.map (·.1) ↔ .tag t ∈ sinceReset cs := by
  induction cs using List.reverseRecOn generalizing r with
  | nil =>
    obtain rfl := Except.ok.inj hr
    simp [Registry.init, sinceReset]
  | append_singleton cs c ih =>
    unfold runCalls at hr
    rw [List.foldlM_append] at hr
    cases e : cs.foldlM TimingCall.run Registry.init with
    | error f => rw [e] at hr; exact absurd hr (by simp [bind, Except.bind])
    | ok r0 =>
      rw [e] at hr
      have hr : TimingCall.run r0 c = .ok r := by
        simp only [bind, Except.bind, List.foldlM_cons, List.foldlM_nil] at hr
        cases e2 : TimingCall.run r0 c with
        | error f => rw [e2] at hr; exact absurd hr (by simp)
        | ok r1 => rw [e2] at hr; exact hr
      have ih := ih r0 e
      rw [sinceReset_append]
      cases c with
      | reset =>
        obtain rfl := Except.ok.inj hr
        simp [Registry.reset]
      | time h s =>
        have : r.tags = r0.tags := by
          simp only [TimingCall.run, Registry.addTime, bind, Except.bind] at hr
          split at hr
          · exact absurd hr (by simp)
          · split at hr
            · exact absurd hr (by simp)
            · rw [← Except.ok.inj hr]
        rw [this, ih]
        simp
      | tag t' =>
        obtain rfl := Except.ok.inj hr
        rw [List.mem_append, ← ih]
        unfold Registry.getHandle
        split
        · rename_i h hf
          have hm := List.mem_map_of_mem (f := (·.1)) (find_some hf)
          simp only [List.mem_singleton, TimingCall.tag.injEq]
          exact ⟨.inl, fun h => h.elim id fun e => e ▸ hm⟩
        · simp

theorem ordered_perm (r : Registry K) : r.ordered.Perm r.tags := List.mergeSort_perm _ _

theorem ordered_sorted (r : Registry K) (hk : (r.tags.map (·.1)).Nodup) : (r.ordered.map (·.1)).Pairwise (· < ·) := by
  have h1 : r.ordered.Pairwise fun a b => decide (a.1 ≤ b.1) = true :=
    List.pairwise_mergeSort (fun a b c h1 h2 => decide_eq_true ((of_decide_eq_true h1).trans (of_decide_eq_true h2)))
      (fun a b => by simpa using le_total a.1 b.1) _
  have h2 : (r.ordered.map (·.1)).Pairwise (· ≤ ·) := by
    rw [List.pairwise_map]
    exact h1.imp fun h => of_decide_eq_true h
  have h3 : (r.ordered.map (·.1)).Nodup := ((ordered_perm r).map _).nodup_iff.mpr hk
  exact (h2.and h3).imp fun h => lt_of_le_of_ne h.1 h.2

/-- Rows without line ends, each followed by one, can be told apart again. -/
theorem lines_of_rows (rows : List (List Char)) (h : ∀ row ∈ rows, '\n' ∉ row) : (rows.flatMap (· ++ ['\n'])).splitOn '\n' = rows ++ [[]] := by
  induction rows with
  | nil => rfl
  | cons a l ih =>
    rw [List.flatMap_cons, List.append_assoc, List.singleton_append, List.splitOn_append_cons_self_of_not_mem (h a (by simp)),
      ih fun row hr => h row (by simp [hr]), List.cons_append]

/-- C157: after any history of calls, if the names of the timers contain no tab and no line end and the durations are at most `10²⁰⁰` seconds, `Print`
succeeds. The table has exactly one row for every name asked for since the last reset, in the order of the names; the columns of each say what was
recorded under that name, each figure to within half a microsecond. Without names it is empty. -/
theorem C157_table (rnd : K → ℕ) (hrnd : RoundsWhole rnd) (sqrt : K → K) (hsqrt : IsSquareRoot sqrt) (cs : List (TimingCall K)) (r : Registry K)
    (hr : runCalls cs = .ok r) (hsmall : ∀ h, ∀ x ∈ recorded h cs, |x| ≤ 10 ^ 200)
    (hnames : ∀ t, .tag t ∈ cs → ∀ c ∈ t.toList, c ≠ '\t' ∧ c ≠ '\n') :
    ∃ (text : List Char) (names : List String) (rows : List (List Char)), print rnd sqrt r = .ok text ∧ names.Pairwise (· < ·) ∧ (∀ t, t ∈ names ↔ .tag t ∈ sinceReset cs) ∧
      (names = [] → text = []) ∧
      (names ≠ [] → text.splitOn '\n' = "SM Timing".toList :: "-----------".toList :: rows ++ [[]]) ∧
      List.Forall₂ (fun t row => RowSays sqrt t (recorded (r.getHandle t).2 cs) (row.splitOn '\t')) names rows := by
  have hi := reg_inv cs r hr
  have hsub : ∀ t, .tag t ∈ sinceReset cs → .tag t ∈ cs := by
    have : ∀ cs : List (TimingCall K), ∀ c ∈ sinceReset cs, c ∈ cs := by
      intro cs
      induction cs using List.reverseRecOn with
      | nil => simp [sinceReset]
      | append_singleton cs c ih =>
        rw [sinceReset_append]
        cases c with
        | reset => simp
        | _ =>
          intro c hc
          rcases List.mem_append.mp hc with h | h
          · exact List.mem_append_left _ (ih c h)
          · exact List.mem_append_right _ h
    exact fun t => this cs _
  -- the rows
  have hrows : ∀ tags : List (String × ℕ), (∀ x ∈ tags, x ∈ r.tags) → ∃ rows, tags.mapM (printLine rnd sqrt r) = .ok rows ∧
      (∀ row ∈ rows, '\n' ∉ row) ∧
      List.Forall₂ (fun t row => RowSays sqrt t (recorded (r.getHandle t).2 cs) (row.splitOn '\t')) (tags.map (·.1)) rows := by
    intro tags
    induction tags with
    | nil => exact fun _ => ⟨[], rfl, by simp, .nil⟩
    | cons x l ih =>
      intro hm
      obtain ⟨rows, h1, h2, h3⟩ := ih fun y hy => hm y (List.mem_cons_of_mem _ hy)
      have hx := hm x List.mem_cons_self
      have hlt := hi.valid x hx
      have hs : r.stats x.2 = .ok r.timers[x.2] := by unfold Registry.stats at?; rw [List.getElem?_eq_getElem hlt]
      have ha := hi.stats x.2 _ (List.getElem?_eq_getElem hlt)
      have hg : (r.getHandle x.1).2 = x.2 := by
        unfold Registry.getHandle
        rw [find_of_mem hi.keys (t := x.1) (h := x.2) hx]
      obtain ⟨row, rest, p1, p2, p3, p4⟩ := row_says hrnd hsqrt r x.1 x.2 _ _ hs ha (hsmall x.2)
        (hnames x.1 (hsub _ ((tags_since_reset cs r hr x.1).mp (List.mem_map_of_mem (f := (·.1)) hx))))
      refine ⟨row :: rows, ?_, ?_, ?_⟩
      · rw [List.mapM_cons]
        have : printLine rnd sqrt r x = .ok row := p1
        rw [this, h1]
        rfl
      · intro y hy
        rcases List.mem_cons.mp hy with rfl | hy
        · exact p3
        · exact h2 y hy
      · rw [List.map_cons]
        refine .cons ?_ h3
        rw [hg]; exact p4
  obtain ⟨rows, h1, h2, h3⟩ := hrows r.ordered fun x hx => (ordered_perm r).mem_iff.mp hx
  have hn : ∀ t, t ∈ r.ordered.map (·.1) ↔ .tag t ∈ sinceReset cs := fun t => by
    rw [← tags_since_reset cs r hr t]; exact ((ordered_perm r).map _).mem_iff
  by_cases he : r.tags = []
  · have ho : r.ordered = [] := List.Perm.eq_nil (he ▸ ordered_perm r)
    refine ⟨[], r.ordered.map (·.1), rows, ?_, ordered_sorted r hi.keys, hn, fun _ => rfl, fun h => absurd (by rw [ho]; rfl) h, h3⟩
    unfold print
    rw [if_pos he]
  · have ho : r.ordered ≠ [] := fun e => he (List.Perm.eq_nil (e ▸ ordered_perm r).symm)
    refine ⟨"SM Timing\n".toList ++ "-----------\n".toList ++ rows.flatMap (· ++ ['\n']), r.ordered.map (·.1), rows, ?_, ordered_sorted r hi.keys, hn,
      fun h => absurd (List.map_eq_nil_iff.mp h) ho, fun _ => ?_, h3⟩
    · unfold print
      rw [if_neg he, h1]
      rfl
    · have e1 : "SM Timing\n".toList = "SM Timing".toList ++ ['\n'] := by decide
      have e2 : "-----------\n".toList = "-----------".toList ++ ['\n'] := by decide
      rw [e1, e2, List.append_assoc, List.append_assoc, List.singleton_append, List.splitOn_append_cons_self_of_not_mem (by decide),
        List.append_assoc, List.singleton_append, List.splitOn_append_cons_self_of_not_mem (by decide), lines_of_rows rows h2]
      rfl

/-- C157: the column of the names is as wide (in bytes) in every row, also for names asked for before a reset, and the column of the numbers of samples
is seven wide below ten million samples. -/
theorem C157_columns (rnd : K → ℕ) (sqrt : K → K) (cs : List (TimingCall K)) (r : Registry K) (hr : runCalls cs = .ok r) :
    ∃ w, ∀ t ∈ r.tags, ∃ a, r.stats t.2 = .ok a ∧ ∀ row, printLine rnd sqrt r t = .ok row →
      ∃ name count rest, row = name ++ '\t' :: count ++ '\t' :: rest ∧ (String.ofList name).utf8ByteSize = w ∧
        (a.total < 10 ^ 7 → count.length = 7) := by
  have hi := reg_inv cs r hr
  refine ⟨r.maxTagLength, fun t ht => ?_⟩
  have hlt := hi.valid t ht
  have hs : r.stats t.2 = .ok r.timers[t.2] := by unfold Registry.stats at?; rw [List.getElem?_eq_getElem hlt]
  refine ⟨_, hs, fun row hrow => ⟨nameColumn r t.1, countColumn (r.timers[t.2]).total, ?_⟩⟩
  have hw : (String.ofList (nameColumn r t.1)).utf8ByteSize = r.maxTagLength := by
    have hl := hi.longest t ht
    have hk : ∀ k, (String.ofList (List.replicate k ' ')).utf8ByteSize = k := by
      intro k
      induction k with
      | zero => rfl
      | succ k ih =>
        rw [List.replicate_succ, String.ofList_cons, String.utf8ByteSize_append, ih]
        have : (String.singleton ' ').utf8ByteSize = 1 := by decide
        omega
    unfold nameColumn
    rw [String.ofList_append, String.utf8ByteSize_append, String.ofList_toList, hk]
    omega
  have hc : (r.timers[t.2]).total < 10 ^ 7 → (countColumn (r.timers[t.2]).total).length = 7 := by
    intro h
    have := (Nat.length_toDigits_le_iff (b := 10) (n := (r.timers[t.2]).total) (k := 7) (by norm_num) (by norm_num)).mpr h
    unfold countColumn
    rw [List.length_append, List.length_replicate]
    omega
  unfold printLine at hrow
  simp only [hs, bind, Except.bind] at hrow
  split at hrow
  · split at hrow
    · exact absurd hrow (by simp)
    · rename_i m _
      split at hrow
      · exact absurd hrow (by simp)
      · rename_i v _
        obtain rfl := Except.ok.inj hrow
        refine ⟨secondsToTimeString rnd (r.timers[t.2]).sum ++ ['\t'] ++ '(' :: secondsToTimeString rnd m ++ " +- ".toList ++
          secondsToTimeString rnd (sqrt v) ++ [')', '\t'] ++ '[' :: secondsToTimeString rnd (r.timers[t.2]).min ++
          ',' :: secondsToTimeString rnd (r.timers[t.2]).max ++ [']'], ?_, hw, hc⟩
        simp only [nameColumn, countColumn, List.append_assoc, List.singleton_append, List.cons_append]
        rfl
  · obtain rfl := Except.ok.inj hrow
    refine ⟨[], ?_, hw, hc⟩
    simp only [nameColumn, countColumn, List.append_assoc, List.singleton_append, List.cons_append]
    rfl

/-- C157: the columns of the times are nine characters wide up to a hundred seconds only: from there on the columns after them are displaced. -/
theorem C157_width (rnd : K → ℕ) (hrnd : RoundsWhole rnd) (x : K) (hx : |x| ≤ 10 ^ 240) :
    (0 ≤ x → x ≤ 99 → (secondsToTimeString rnd x).length = 9) ∧ (100 ≤ x → 9 < (secondsToTimeString rnd x).length) := by
  rw [time_string hrnd hx, formatSeconds_length]
  have hb := abs_le.mp (hrnd (|x| * 10 ^ 6) (mul_nonneg (abs_nonneg _) (by positivity)))
  refine ⟨fun h0 h1 => ?_, fun h1 => ?_⟩
  · rw [if_neg (not_lt.mpr h0)]
    rw [abs_of_nonneg h0] at hb ⊢
    have h2 : (rnd (x * 10 ^ 6) : K) ≤ 99 * 10 ^ 6 + 1 := by
      have := mul_le_mul_of_nonneg_right h1 (by positivity : (0 : K) ≤ 10 ^ 6)
      have e : (1 : K) / 2 ≤ 1 := by norm_num
      exact (sub_le_iff_le_add'.mp hb.2).trans (add_le_add this e)
    have h3 : rnd (x * 10 ^ 6) ≤ 99 * 10 ^ 6 + 1 := by exact_mod_cast h2
    have h4 : rnd (x * 10 ^ 6) / 10 ^ 6 < 10 ^ 2 := by omega
    have := (Nat.length_toDigits_le_iff (b := 10) (k := 2) (by norm_num) (by norm_num)).mpr h4
    omega
  · have h0 : 0 ≤ x := le_trans (by norm_num) h1
    rw [if_neg (not_lt.mpr h0)]
    rw [abs_of_nonneg h0] at hb ⊢
    have h2 : (100 * 10 ^ 6 : K) < rnd (x * 10 ^ 6) + 1 := by
      have := mul_le_mul_of_nonneg_right h1 (by positivity : (0 : K) ≤ 10 ^ 6)
      have key : ∀ m y : K, 100 * 10 ^ 6 ≤ y → -(1 / 2) ≤ m - y → 100 * 10 ^ 6 < m + 1 := fun m y h1 h2 => by linarith
      exact key _ _ this hb.1
    have h3 : 100 * 10 ^ 6 < rnd (x * 10 ^ 6) + 1 := by exact_mod_cast h2
    have h4 : ¬ rnd (x * 10 ^ 6) / 10 ^ 6 < 10 ^ 2 := by omega
    have := mt (Nat.length_toDigits_le_iff (b := 10) (k := 2) (n := rnd (x * 10 ^ 6) / 10 ^ 6) (by norm_num) (by norm_num)).mp h4
    omega

/-- Rounding to the nearest whole number and the square root of the reals meet the hypotheses. -/
theorem floor_rounds : RoundsWhole fun y : ℝ => ⌊y + 1 / 2⌋₊ := by
  intro y hy
  have h1 := Nat.floor_le (by linarith : (0 : ℝ) ≤ y + 1 / 2)
  have h2 := Nat.lt_floor_add_one (y + 1 / 2)
  rw [abs_le]
  constructor <;> linarith

theorem real_sqrt_is : IsSquareRoot Real.sqrt := fun y hy => ⟨Real.sqrt_nonneg y, Real.mul_self_sqrt hy⟩

/-- A history that meets the hypotheses of `C157_table`: three timers, one forgotten by a reset, one with a sample and one without. -/
example : ∃ r : Registry ℝ, runCalls [.tag "old", .reset, .tag "solve", .time 1 (1 / 4), .tag "idle"] = .ok r ∧
    (∃ (text : List Char) (names : List String) (rows : List (List Char)), print (fun y : ℝ => ⌊y + 1 / 2⌋₊) Real.sqrt r = .ok text ∧ names.Pairwise (· < ·) ∧ "solve" ∈ names ∧ "idle" ∈ names ∧
      "old" ∉ names ∧ text.splitOn '\n' = "SM Timing".toList :: "-----------".toList :: rows ++ [[]]) := by
  have hrun : ∃ r : Registry ℝ, runCalls [.tag "old", .reset, .tag "solve", .time 1 (1 / 4), .tag "idle"] = .ok r := by
    have ok : ∀ x : Res (Registry ℝ), x.isOk = true → ∃ r, x = .ok r := by
      rintro (f | r) h
      · simp [Except.isOk, Except.toBool] at h
      · exact ⟨r, rfl⟩
    apply ok
    · simp [Except.isOk, Except.toBool, runCalls, TimingCall.run, Registry.getHandle, Registry.find, Registry.init, Registry.reset, Registry.addTime, at?, Accumulator.add,
        Accumulator.init, intMax, window, bind, Except.bind, pure, Except.pure]
  obtain ⟨r, hr⟩ := hrun
  refine ⟨r, hr, ?_⟩
  obtain ⟨text, names, rows, h1, h2, h3, _, h5, _⟩ := C157_table _ floor_rounds _ real_sqrt_is _ r hr (by
      intro h x hx
      have : x = 1 / 4 := by
        simp only [recorded, List.filterMap_cons, List.filterMap_nil] at hx
        by_cases e : 1 = h
        · simp [e] at hx; rw [hx]; norm_num
        · simp [e] at hx
      rw [this]
      norm_num [abs_of_pos])
    (by
      intro t ht
      simp only [List.mem_cons, TimingCall.tag.injEq, reduceCtorEq, List.not_mem_nil, or_false, false_or] at ht
      rcases ht with rfl | rfl | rfl <;> decide)
  have hs : "solve" ∈ names := (h3 _).mpr (by simp [sinceReset])
  exact ⟨text, names, rows, h1, h2, hs, (h3 _).mpr (by simp [sinceReset]), fun h => absurd ((h3 _).mp h) (by simp [sinceReset]),
    h5 (List.ne_nil_of_mem hs)⟩

/-- The text of a time, computed. -/
example : secondsToTimeString (fun y : ℚ => ⌊y + 1 / 2⌋₊) (-12345678 / 1000000) = "-12.345678".toList ∧
    secondsToTimeString (fun y : ℚ => ⌊y + 1 / 2⌋₊) (1 / 4) = "00.250000".toList := by decide +kernel

end Verif.Properties
