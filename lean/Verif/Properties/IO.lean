import Verif.Lemmas.IO
import Verif.Lemmas.PlannerInv
import Verif.Properties.Sampling

set_option linter.unusedSectionVars false

/-!
# Properties C64 and C95: saved trajectories and the table of sampled states

`Spec.ReadsBackAs` (in `Verif.Spec.IO`): same polynomials, duration rounded down to whole nanoseconds. `Spec.Storable`: the numbers fit
the integer types of the format. `Spec.Declared`: every dimension has the declared number of coefficients. `Spec.TableRow`: the layout of
the table.
-/

namespace Verif.Properties

open Spec _root_.Verif.IO

section
variable {K : Type} [Field K] [LinearOrder K] [IsStrictOrderedRing K] [FloorRing K]

/-- Two segments in two dimensions; the second duration is one and a half nanoseconds over two seconds. -/
def ioSegs : List (Segment ℚ) := [⟨2, 3, [[1, 2], [0, -1]]⟩, ⟨2, 2 + 3 / 2000000000, [[7, 0], [-3, 1 / 2]]⟩]

theorem ioSegs_ok : ioSegs ≠ [] ∧ (∀ s ∈ ioSegs, Storable s) ∧ (∀ s ∈ ioSegs, Declared s) ∧ (∀ s ∈ ioSegs, s.polys ≠ []) := by
  refine ⟨by simp [ioSegs], ?_, by simp [ioSegs, Declared], by simp [ioSegs]⟩
  intro s hs
  simp only [ioSegs, List.mem_cons, List.not_mem_nil, or_false] at hs
  rcases hs with rfl | rfl <;> constructor <;> norm_num

/-- The exact outcome for a segment whose duration is a whole number of nanoseconds is the segment itself. -/
theorem readsBack_whole (s s' : Segment K) (n : ℕ) (hn : s.time = n / 1000000000) (h : ReadsBackAs s s') : s' = s := by
  obtain ⟨N, t, ps⟩ := s
  obtain ⟨N', t', ps'⟩ := s'
  obtain ⟨h1, h2, ⟨m, h3⟩, h4, h5⟩ := h
  simp only at *
  have h9 : (0 : K) < 1000000000 := by norm_num
  rw [h3, hn, div_le_div_iff_of_pos_right h9] at h4
  rw [h3, hn, ← add_div, div_lt_div_iff_of_pos_right h9] at h5
  have h4' : m ≤ n := by exact_mod_cast h4
  have h5' : n < m + 1 := by exact_mod_cast h5
  have : m = n := by omega
  rw [h1, h2, h3, hn, this]

theorem back_forall₂ (segs : List (Segment K)) (hs : ∀ s ∈ segs, Storable s) :
    List.Forall₂ ReadsBackAs segs (segs.map back) := by
  rw [List.forall₂_map_right_iff, List.forall₂_same]
  exact fun s h => readsBack_ns s (hs s h)

/-- A non-empty list of segments with at least one dimension each, written to a YAML node, reads back with the durations rounded down to
nanoseconds. -/
theorem C64_node_round_trip (segs : List (Segment K)) (hne : segs ≠ []) (hs : ∀ s ∈ segs, Storable s)
    (hD : ∀ s ∈ segs, s.polys ≠ []) :
    ∃ y l segs', segmentsToYaml segs = .ok y ∧ y.get "segments" = .ok l ∧ segmentsFromYaml l = .ok (some segs') ∧
      List.Forall₂ ReadsBackAs segs segs' := by
  obtain ⟨l, h1, h2⟩ := yaml_back segs hne hs hD
  exact ⟨_, l, _, h1, rfl, h2, back_forall₂ segs hs⟩

/-- The same for a single segment. -/
theorem C64_segment_round_trip (s : Segment K) (hs : Storable s) (hD : s.polys ≠ []) :
    ∃ y s', segmentToYaml s = .ok y ∧ segmentFromYaml y = .ok (some s') ∧ ReadsBackAs s s' :=
  ⟨_, _, segmentToYaml_ok s hs hD, segmentFromYaml_ok s hs, readsBack_ns s hs⟩

/-- A list of segments with the declared numbers of coefficients (also an empty list, also without dimensions), written to a file that can
be opened, reads back with the durations rounded down to nanoseconds, whatever the output list held before. If the file cannot be opened,
the writer says so. -/
theorem C64_file_round_trip (segs : List (Segment K)) (hs : ∀ s ∈ segs, Storable s) (hd : ∀ s ∈ segs, Declared s) :
    ∃ doc segs', segmentsToFile true segs = .ok (true, some doc) ∧ segmentsToFile false segs = .ok (false, none) ∧
      (∀ old, segmentsFromFile (some doc) old = .ok (true, segs')) ∧ List.Forall₂ ReadsBackAs segs segs' := by
  obtain ⟨doc, h1, h2⟩ := file_back segs hs hd
  exact ⟨doc, _, h1 true, h1 false, h2, back_forall₂ segs hs⟩

/-- Durations that are whole numbers of nanoseconds (in particular those of segments read earlier) are kept exactly. -/
theorem C64_exact (segs : List (Segment K)) (hne : segs ≠ []) (hs : ∀ s ∈ segs, Storable s) (hd : ∀ s ∈ segs, Declared s)
    (hD : ∀ s ∈ segs, s.polys ≠ []) (hn : ∀ s ∈ segs, ∃ n : ℕ, s.time = n / 1000000000) :
    (∃ y l, segmentsToYaml segs = .ok y ∧ y.get "segments" = .ok l ∧ segmentsFromYaml l = .ok (some segs)) ∧
    (∃ doc, segmentsToFile true segs = .ok (true, some doc) ∧ ∀ old, segmentsFromFile (some doc) old = .ok (true, segs)) := by
  have e : segs.map back = segs := by
    rw [List.map_congr_left (g := id), List.map_id]
    intro s h
    obtain ⟨n, hn⟩ := hn s h
    exact readsBack_whole s _ n hn (readsBack_ns s (hs s h))
  obtain ⟨l, h1, h2⟩ := yaml_back segs hne hs hD
  obtain ⟨doc, h3, h4⟩ := file_back segs hs hd
  rw [e] at h2 h4
  exact ⟨⟨_, l, h1, rfl, h2⟩, doc, h3 true, h4⟩

theorem duration_back (segs segs' : List (Segment K)) (h : List.Forall₂ ReadsBackAs segs segs') :
    duration segs' ≤ duration segs ∧ duration segs ≤ duration segs' + segs.length / 1000000000 := by
  induction h with
  | nil => simp
  | cons h _ ih =>
    simp only [duration_cons, List.length_cons, Nat.cast_add, Nat.cast_one, add_div]
    exact ⟨add_le_add h.le ih.1, by linarith [h.lt, ih.2]⟩

/-- A consistent, non-empty trajectory with at least one dimension survives both ways of saving; its total duration shrinks by at most one
nanosecond per segment. -/
theorem C64_trajectory (tr : Trajectory K) (hc : Consistent tr) (hne : tr.segments ≠ []) (hs : ∀ s ∈ tr.segments, Storable s)
    (hd : ∀ s ∈ tr.segments, Declared s) (hD : tr.D ≠ 0) :
    ∃ (tr' : Trajectory K) (y doc : Yaml K), trajectoryToYaml tr = .ok y ∧ trajectoryFromYaml y = .ok (some tr') ∧
      trajectoryToFile true tr = .ok (true, some doc) ∧ trajectoryFromFile (some doc) = .ok (true, tr') ∧
      tr'.D = tr.D ∧ tr'.N = tr.N ∧ List.Forall₂ ReadsBackAs tr.segments tr'.segments ∧ Consistent tr' ∧
      tr'.maxTime ≤ tr.maxTime ∧ tr.maxTime ≤ tr'.maxTime + tr.segments.length / 1000000000 := by
  have hD' : ∀ s ∈ tr.segments, s.polys ≠ [] := by
    intro s h e
    have := (hc.2 s h).1
    rw [e] at this
    exact hD this.symm
  obtain ⟨l, h1, h2⟩ := yaml_back tr.segments hne hs hD'
  obtain ⟨doc, h3, h4⟩ := file_back tr.segments hs hd
  have hb := back_forall₂ tr.segments hs
  have hdn : ∀ s ∈ tr.segments.map back, s.polys.length = tr.D ∧ s.N = tr.N := by
    intro s h
    obtain ⟨a, ha, rfl⟩ := List.mem_map.mp h
    exact hc.2 a ha
  have hset := setSegments_ok tr.D tr.N (tr.segments.map back) (by simpa using hne) hdn
  have hdur := duration_back _ _ hb
  refine ⟨⟨tr.D, tr.N, duration (tr.segments.map back), tr.segments.map back⟩, _, doc, h1, ?_, h3 true, ?_, rfl, rfl, hb,
    ⟨rfl, hdn⟩, ?_, ?_⟩
  · have hg : (Yaml.map [("segments", l)]).get "segments" = .ok l := rfl
    simp only [trajectoryFromYaml, hg, ok_bind, h2, hset, res_pure]
  · simp only [trajectoryFromFile, h4, ok_bind, hset, res_pure]
  · rw [hc.1]; exact hdur.1
  · rw [hc.1]; exact hdur.2

/-- Through YAML nodes an empty list does not read back (the missing key makes the reader throw), and neither does a list with a segment
without dimensions (the reader says no). -/
theorem C64_node_gaps :
    (∃ y : Yaml K, segmentsToYaml [] = .ok y ∧ trajectoryFromYaml y = .error .exc) ∧
    ∀ s : Segment K, Storable s → s.polys = [] → ∃ y, segmentToYaml s = .ok y ∧ segmentFromYaml y = .ok none := by
  refine ⟨⟨.null, rfl, rfl⟩, fun s hs hp =>
    ⟨.map [("N", .int s.N), ("D", .int s.D), ("time", .int (nsOf s))], ?_, ?_⟩⟩
  · simp only [segmentToYaml, getTimeNSec_ok s hs, bind, Except.bind, pure, Except.pure, if_pos hp]
  · rfl

/-! ## Reading documents from elsewhere -/

theorem bind_inv {α β : Type} {x : Res α} {f : α → Res β} {b : β} (h : (x >>= f) = .ok b) : ∃ a, x = .ok a ∧ f a = .ok b := by
  cases x with
  | error e => cases h
  | ok a => exact ⟨a, rfl, h⟩

theorem fileCoefficients_sizes (N : ℕ) (y : Yaml K) (n j : ℕ) (cs : List (Poly K)) (h : fileCoefficients N y j n = .ok (some cs)) :
    cs.length = n ∧ ∀ c ∈ cs, c.length = N := by
  induction n generalizing j cs with
  | zero =>
    have e : cs = [] := (Option.some.inj (Except.ok.inj h)).symm
    simp [e]
  | succ n ih =>
    rw [fileCoefficients_succ] at h
    obtain ⟨row, _, h⟩ := bind_inv h
    obtain ⟨m, _, h⟩ := bind_inv h
    split at h
    · cases h
    · obtain ⟨c, hc, h⟩ := bind_inv h
      obtain ⟨r, hr, h⟩ := bind_inv h
      cases r with
      | none => cases h
      | some cs' =>
        have e : cs = c :: cs' := (Option.some.inj (Except.ok.inj h)).symm
        have hlen : c.length = N := by
          have := (Lemmas.mapM_forall2 _ _ _ hc).length_eq
          simpa using this.symm
        obtain ⟨i1, i2⟩ := ih _ _ hr
        rw [e]
        refine ⟨by simp [i1], ?_⟩
        intro x hx
        rcases List.mem_cons.mp hx with rfl | hx
        · exact hlen
        · exact i2 x hx

/-- Every segment that the file reader puts into the list has the declared number of coefficients in every dimension and a non-negative
duration, whether or not the reader reports success. -/
theorem C64_file_only_well_formed (doc : Yaml K) (old segs : List (Segment K)) (ok : Bool)
    (h : segmentsFromFile (some doc) old = .ok (ok, segs)) : ∀ s ∈ segs, Declared s ∧ 0 ≤ s.time := by
  have hseg : ∀ (y : Yaml K) (s : Segment K), segmentFromTree y = .ok (some s) → Declared s ∧ 0 ≤ s.time := by
    intro y s h
    unfold segmentFromTree at h
    obtain ⟨_, _, h⟩ := bind_inv h
    obtain ⟨_, _, h⟩ := bind_inv h
    obtain ⟨_, _, h⟩ := bind_inv h
    obtain ⟨_, _, h⟩ := bind_inv h
    split at h
    · obtain ⟨_, _, h⟩ := bind_inv h
      obtain ⟨N, _, h⟩ := bind_inv h
      obtain ⟨_, _, h⟩ := bind_inv h
      obtain ⟨D, _, h⟩ := bind_inv h
      obtain ⟨s₀, _, h⟩ := bind_inv h
      obtain ⟨_, _, h⟩ := bind_inv h
      obtain ⟨n, _, h⟩ := bind_inv h
      obtain ⟨_, _, h⟩ := bind_inv h
      obtain ⟨_, _, h⟩ := bind_inv h
      split at h
      · cases h
      · obtain ⟨_, _, h⟩ := bind_inv h
        obtain ⟨r, hr, h⟩ := bind_inv h
        cases r with
        | none => cases h
        | some cs =>
          have e : s = setTimeNSec { s₀ with polys := cs } n := (Option.some.inj (Except.ok.inj h)).symm
          rw [e]
          refine ⟨(fileCoefficients_sizes _ _ _ _ _ hr).2, ?_⟩
          have : (0 : K) ≤ (n : K) / 1000000000 := by positivity
          exact this
    · cases h
  have hloop : ∀ (n i : ℕ) (y : Yaml K) (r : Bool × List (Segment K)), fileSegments y i n = .ok r →
      ∀ s ∈ r.2, Declared s ∧ 0 ≤ s.time := by
    intro n
    induction n with
    | zero =>
      intro i y r h
      rw [← Except.ok.inj h]
      simp
    | succ n ih =>
      intro i y r h
      rw [fileSegments_succ] at h
      obtain ⟨z, _, h⟩ := bind_inv h
      obtain ⟨o, ho, h⟩ := bind_inv h
      cases o with
      | none =>
        rw [← Except.ok.inj h]
        simp
      | some s =>
        obtain ⟨r', hr', h⟩ := bind_inv h
        rw [← Except.ok.inj h]
        intro x hx
        rcases List.mem_cons.mp hx with rfl | hx
        · exact hseg _ _ ho
        · exact ih _ _ _ hr' x hx
  unfold segmentsFromFile at h
  obtain ⟨y, _, h⟩ := bind_inv h
  split at h
  · obtain ⟨n, _, h⟩ := bind_inv h
    exact hloop _ _ _ _ h
  · have := Except.ok.inj h
    have e : segs = [] := (congrArg Prod.snd this).symm
    simp [e]

theorem fileSegments_stops (good : List (Segment K)) (hs : ∀ s ∈ good, Storable s) (hd : ∀ s ∈ good, Declared s) (bad : Yaml K)
    (hb : segmentFromTree bad = .ok none) (rest l : List (Yaml K)) (i : ℕ) (h : l.drop i = good.map tree ++ bad :: rest) (n : ℕ) :
    fileSegments (.seq l) i (good.length + 1 + n) = .ok (false, good.map back) := by
  induction good generalizing i with
  | nil =>
    obtain ⟨h1, h2⟩ := drop_cons_get h Yaml.undefined
    rw [List.length_nil, show 0 + 1 + n = n + 1 by omega, fileSegments_succ]
    simp only [idx_seq, ok_bind, h1, hb, res_pure, List.map_nil]
  | cons s ss ih =>
    obtain ⟨h1, h2⟩ := drop_cons_get h Yaml.undefined
    rw [List.length_cons, show ss.length + 1 + 1 + n = (ss.length + 1 + n) + 1 by omega, fileSegments_succ]
    simp only [idx_seq, ok_bind, h1, segmentFromTree_ok s (hs s (by simp)) (hd s (by simp)), res_pure, List.map_cons,
      ih (fun t ht => hs t (by simp [ht])) (fun t ht => hd t (by simp [ht])) (i + 1) h2]

/-- A faulty entry ends the reading: the reader reports failure, but the segments before the faulty entry stay in the list, and
`trajectoryFromFile` puts them into the trajectory. -/
theorem C64_file_faulty_entry (tr : Trajectory K) (hc : Consistent tr) (hne : tr.segments ≠ []) (hs : ∀ s ∈ tr.segments, Storable s)
    (hd : ∀ s ∈ tr.segments, Declared s) (bad : Yaml K) (hb : segmentFromTree bad = .ok none) (rest : List (Yaml K)) :
    ∃ (ys : List (Yaml K)) (tr' : Trajectory K),
      trajectoryToFile true tr = .ok (true, some (.map [("segments", .seq ys)])) ∧
      trajectoryFromFile (some (.map [("segments", .seq (ys ++ bad :: rest))])) = .ok (false, tr') ∧
      List.Forall₂ ReadsBackAs tr.segments tr'.segments := by
  have hdn : ∀ s ∈ tr.segments.map back, s.polys.length = tr.D ∧ s.N = tr.N := by
    intro s h
    obtain ⟨a, ha, rfl⟩ := List.mem_map.mp h
    exact hc.2 a ha
  refine ⟨tr.segments.map tree, ⟨tr.D, tr.N, duration (tr.segments.map back), tr.segments.map back⟩, ?_, ?_, back_forall₂ _ hs⟩
  · rw [trajectoryToFile, segmentsToFile, mapM_ok _ _ tr.segments fun s h => segmentToTree_ok s (hs s h) (hd s h)]
    rfl
  · have hloop := fileSegments_stops tr.segments hs hd bad hb rest (tr.segments.map tree ++ bad :: rest) 0 (by simp) rest.length
    have hsize : (Yaml.seq (tr.segments.map tree ++ bad :: rest)).size = .ok (tr.segments.length + 1 + rest.length) := by
      simp only [Yaml.size, List.length_append, List.length_map, List.length_cons]
      congr 1; omega
    have hg : (Yaml.map [("segments", .seq (tr.segments.map tree ++ bad :: rest))]).get "segments" =
        .ok (.seq (tr.segments.map tree ++ bad :: rest)) := rfl
    have hread : segmentsFromFile (some (.map [("segments", .seq (tr.segments.map tree ++ bad :: rest))])) [] =
        .ok (false, tr.segments.map back) := by
      simp only [segmentsFromFile, hg, ok_bind, Yaml.isDefined, if_true, hsize, hloop]
    simp only [trajectoryFromFile, hread, ok_bind, res_pure, setSegments_ok tr.D tr.N (tr.segments.map back) (by simpa using hne) hdn]

/-- A file that cannot be read: `segmentsFromFile` says so and leaves the list alone, but `trajectoryFromFile` aborts the process, because
it hands the empty list to a function that insists on segments. The same happens with a file without the `segments` key. -/
theorem C64_unreadable_file :
    (∀ old : List (Segment K), segmentsFromFile none old = .ok (false, old)) ∧
    trajectoryFromFile (none : Option (Yaml K)) = .error .check ∧
    trajectoryFromFile (some (.map []) : Option (Yaml K)) = .error .check :=
  ⟨fun _ => rfl, rfl, rfl⟩

theorem mapM_ub {α β : Type} (f : α → Res β) (l : List α) (h : ∀ a ∈ l, (∃ b, f a = .ok b) ∨ f a = .error .ub)
    (hx : ∃ a ∈ l, f a = .error .ub) : l.mapM f = .error .ub := by
  induction l with
  | nil => obtain ⟨a, ha, _⟩ := hx; cases ha
  | cons a l ih =>
    rw [List.mapM_cons]
    rcases h a (by simp) with ⟨b, hb⟩ | hb
    · obtain ⟨c, hc, hce⟩ := hx
      have hl : ∃ a ∈ l, f a = .error .ub := by
        rcases List.mem_cons.mp hc with rfl | hc
        · rw [hb] at hce; cases hce
        · exact ⟨c, hc, hce⟩
      rw [hb, ih (fun x hx => h x (by simp [hx])) hl]
      rfl
    · rw [hb]; rfl

/-- Writing a segment to a file when a dimension has fewer coefficients than declared reads past the end of the coefficients. -/
theorem C64_file_short_polynomial (s : Segment K) (hs : Storable s) (p : Poly K) (hp : p ∈ s.polys) (hN : p.length < s.N)
    (canOpen : Bool) (rest : List (Segment K)) : segmentsToFile canOpen (s :: rest) = .error .ub := by
  have hall : ∀ q : Poly K, ∀ j, (∃ b, at? q j = .ok b) ∨ at? q j = .error .ub := by
    intro q j
    unfold at?
    split
    · exact .inl ⟨_, rfl⟩
    · exact .inr rfl
  have hfirst : ∀ q : Poly K, (∃ b, firstCoefficients s.N q = .ok b) ∨ firstCoefficients s.N q = .error .ub := by
    intro q
    unfold firstCoefficients
    by_cases he : ∃ a ∈ List.range s.N, at? q a = .error .ub
    · rw [mapM_ub _ _ (fun a _ => hall q a) he]; exact .inr rfl
    · have : ∀ a ∈ List.range s.N, ∃ b, at? q a = .ok b := by
        intro a ha
        rcases hall q a with h | h
        · exact h
        · exact absurd ⟨a, ha, h⟩ he
      obtain ⟨l', hl'⟩ := Lemmas.mapM_total _ _ this
      rw [hl']; exact .inl ⟨_, rfl⟩
  have hbad : firstCoefficients s.N p = .error .ub := by
    unfold firstCoefficients
    rw [mapM_ub _ _ (fun a _ => hall p a) ⟨p.length, by simpa using hN, by simp [at?]⟩]
    rfl
  rw [segmentsToFile, List.mapM_cons, segmentToTree, getTimeNSec_ok s hs, ok_bind,
    mapM_ub _ _ (fun q _ => hfirst q) ⟨p, hp, hbad⟩]
  rfl

/-- An empty trajectory can be written to a file, but reading that file back aborts the process. -/
theorem C64_empty_trajectory_file :
    ∃ doc : Yaml K, trajectoryToFile true (Trajectory.empty : Trajectory K) = .ok (true, some doc) ∧
      trajectoryFromFile (some doc) = .error .check :=
  ⟨.map [("segments", .seq [])], rfl, rfl⟩

end

/-- The reader of YAML nodes does not compare the number of coefficients with the declared one: a node that declares three and has two is
accepted. The reader of files refuses it. -/
theorem C64_node_sizes_unchecked :
    ∃ (y : Yaml ℚ) (s : Segment ℚ), segmentFromYaml y = .ok (some s) ∧ ¬ Declared s ∧
      segmentFromTree y = .ok none :=
  ⟨.map [("N", .int 3), ("D", .int 1), ("time", .int 5), ("coefficients", .seq [.seq [.int 1, .int 2]])],
    ⟨3, 5 / 1000000000, [[1, 2]]⟩, by decide +kernel, by simp [Declared], by decide +kernel⟩

/-! Non-vacuity: the hypotheses of the theorems above hold of `ioSegs`, and the second segment reads back half a nanosecond shorter. -/

example : ∃ y l segs', segmentsToYaml ioSegs = .ok y ∧ y.get "segments" = .ok l ∧ segmentsFromYaml l = .ok (some segs') ∧
    List.Forall₂ ReadsBackAs ioSegs segs' :=
  C64_node_round_trip ioSegs ioSegs_ok.1 ioSegs_ok.2.1 ioSegs_ok.2.2.2

example : ∃ y s', segmentToYaml (⟨2, 2 + 3 / 2000000000, [[7, 0], [-3, 1 / 2]]⟩ : Segment ℚ) = .ok y ∧
    segmentFromYaml y = .ok (some s') ∧ ReadsBackAs ⟨2, 2 + 3 / 2000000000, [[7, 0], [-3, 1 / 2]]⟩ s' :=
  C64_segment_round_trip _ (by constructor <;> norm_num) (by simp)

example : ReadsBackAs (⟨2, 2 + 3 / 2000000000, [[7, 0], [-3, 1 / 2]]⟩ : Segment ℚ) ⟨2, 2 + 1 / 1000000000, [[7, 0], [-3, 1 / 2]]⟩ := by
  refine ⟨rfl, rfl, ⟨2000000001, by norm_num⟩, by norm_num, by norm_num⟩

example : ¬ ReadsBackAs (⟨2, 2 + 3 / 2000000000, [[7, 0], [-3, 1 / 2]]⟩ : Segment ℚ)
    ⟨2, 2 + 2 / 1000000000, [[7, 0], [-3, 1 / 2]]⟩ := by
  intro h; have := h.le; norm_num at this

example : ∃ doc segs', segmentsToFile true ioSegs = .ok (true, some doc) ∧ segmentsToFile false ioSegs = .ok (false, none) ∧
    (∀ old, segmentsFromFile (some doc) old = .ok (true, segs')) ∧ List.Forall₂ ReadsBackAs ioSegs segs' :=
  C64_file_round_trip ioSegs ioSegs_ok.2.1 ioSegs_ok.2.2.1

example : Consistent (⟨2, 2, 5 + 3 / 2000000000, ioSegs⟩ : Trajectory ℚ) := by
  refine ⟨by norm_num [ioSegs, duration], by simp [ioSegs]⟩

example : ∃ tr' : Trajectory ℚ, ∃ y doc, trajectoryToYaml ⟨2, 2, 5 + 3 / 2000000000, ioSegs⟩ = .ok y ∧
    trajectoryFromYaml y = .ok (some tr') ∧ trajectoryToFile true ⟨2, 2, 5 + 3 / 2000000000, ioSegs⟩ = .ok (true, some doc) ∧
    trajectoryFromFile (some doc) = .ok (true, tr') ∧ tr'.N = 2 := by
  obtain ⟨tr', y, doc, h1, h2, h3, h4, _, h5, _⟩ := C64_trajectory (⟨2, 2, 5 + 3 / 2000000000, ioSegs⟩ : Trajectory ℚ)
    ⟨by norm_num [ioSegs, duration], by simp [ioSegs]⟩ ioSegs_ok.1 ioSegs_ok.2.1 ioSegs_ok.2.2.1 (by simp)
  exact ⟨tr', y, doc, h1, h2, h3, h4, h5⟩

/-- An entry without coefficients is faulty (hypothesis of `C64_file_faulty_entry`). -/
example : segmentFromTree (.map [("N", .int 2), ("D", .int 2), ("time", .int 7)] : Yaml ℚ) = .ok none := rfl

example : segmentsToFile true [(⟨3, 1, [[1, 2]]⟩ : Segment ℚ)] = .error .ub :=
  C64_file_short_polynomial _ (by constructor <;> norm_num) [1, 2] (by simp) (by simp) _ _

/-- A document accepted by the file reader (hypothesis of `C64_file_only_well_formed`). -/
example : segmentsFromFile (some (.map [("segments", .seq [.map [("N", .int 2), ("D", .int 1), ("time", .int 7),
    ("coefficients", .seq [.seq [.real 1, .int 2]])]])]) : Option (Yaml ℚ)) [] = .ok (true, [⟨2, 7 / 1000000000, [[1, 2]]⟩]) := by
  decide +kernel

/-! ## The table of sampled states -/

/-- The table has a row for every multiple of 10 ms before the end of the trajectory; each row holds the state sampled at that time in the
fixed layout; the last column holds the end time of segment `n` in row `n` and zero in the rows that have no segment. The trajectory has
derivatives without jumps up to order 4 and no more segments than rows. -/
theorem C95_table (tr : Trajectory ℝ) (hc : Consistent tr) (hne : tr.segments ≠ []) (hT : ∀ s ∈ tr.segments, 0 < s.time)
    (hR : ∀ s ∈ tr.segments, Regular s) (hD : 3 ≤ tr.D) (hmax : tr.maxTime ≤ 9000000000)
    (hcont : ∀ k ≤ 4, ∀ (i : ℕ) (a b : Segment ℝ), tr.segments[i]? = some a → tr.segments[i + 1]? = some b →
      segDeriv a k a.time = segDeriv b k 0)
    (hrows : ((tr.segments.length - 1 : ℕ) : ℝ) * (1 / 100) < tr.maxTime) :
    ∃ (table : List (List ℝ)) (fuel₀ : ℕ),
      (∀ fuel ≥ fuel₀, sampledTrajectoryStatesToFile fuel true tr = .ok (true, some table) ∧
        sampledTrajectoryStatesToFile fuel false tr = .ok (false, none)) ∧
      (∀ n : ℕ, n < table.length ↔ n * (1 / 100 : ℝ) < tr.maxTime) ∧
      ∀ (n : ℕ) (row : List ℝ), table[n]? = some row → ∃ (v : ℕ → List ℝ) (st : Mav.TrajectoryPoint),
        (∀ k ≤ 4, tr.evaluate (n * (1 / 100)) k = .ok (v k)) ∧ Sample tr.D (n * (1 / 100)) v {} st ∧
        TableRow st (if n < tr.segments.length then startOf tr.segments (n + 1) else 0) row := by
  obtain ⟨new, fuel₀, h1, h2, h3⟩ := C65_whole tr hc hne hT hR hD hmax (1 / 100) (by norm_num) hcont []
  have hlen : 0 < tr.segments.length := List.length_pos_of_ne_nil hne
  have hle : 0 + tr.segments.length ≤ (new.map tableRow).length := by
    have := (h2 (tr.segments.length - 1)).mpr hrows
    rw [List.length_map]; omega
  obtain ⟨table, t1, t2, t3, t4⟩ := writeSegmentTimes_ok tr.segments 0 0 (new.map tableRow) hle
  have hrun : ∀ canOpen, ∀ fuel ≥ fuel₀, sampledTrajectoryStatesToFile fuel canOpen tr =
      .ok (if canOpen then (true, some table) else (false, none)) := by
    intro canOpen fuel hf
    simp only [sampledTrajectoryStatesToFile, h1 fuel hf, ok_bind, not_true_eq_false, if_false, t1, res_pure]
  refine ⟨table, fuel₀, fun fuel hf => ⟨hrun true fuel hf, hrun false fuel hf⟩, ?_, ?_⟩
  · intro n
    rw [t2, List.length_map]; exact h2 n
  · intro n row hrow
    have hn : n < new.length := by
      have := (List.getElem?_eq_some_iff.mp hrow).1
      rwa [t2, List.length_map] at this
    obtain ⟨v, hv, hs⟩ := h3 n new[n] (List.getElem?_eq_getElem hn)
    have hold : (new.map tableRow)[n]? = some (tableRow new[n]) := by simp [hn]
    refine ⟨v, new[n], hv, by simpa using hs, ?_⟩
    by_cases hns : n < tr.segments.length
    · have := t4 n hns (tableRow new[n]) (by simpa using hold)
      rw [Nat.zero_add, hrow] at this
      rw [if_pos hns, Option.some.inj this]
      have := tableRow_ok new[n] (0 + duration (tr.segments.take (n + 1)))
      simpa [startOf] using this
    · have := t3 n (.inr (by omega))
      rw [hrow, hold] at this
      rw [if_neg hns, Option.some.inj this]
      exact tableRow_zero _

/-- When the trajectory has more segments than samples, the last column is written past the end of the table. -/
theorem C95_more_segments_than_rows (tr : Trajectory ℝ) (hc : Consistent tr) (hne : tr.segments ≠ [])
    (hT : ∀ s ∈ tr.segments, 0 < s.time) (hR : ∀ s ∈ tr.segments, Regular s) (hD : 3 ≤ tr.D) (hmax : tr.maxTime ≤ 9000000000)
    (hcont : ∀ k ≤ 4, ∀ (i : ℕ) (a b : Segment ℝ), tr.segments[i]? = some a → tr.segments[i + 1]? = some b →
      segDeriv a k a.time = segDeriv b k 0)
    (hrows : tr.maxTime ≤ ((tr.segments.length - 1 : ℕ) : ℝ) * (1 / 100)) :
    ∃ fuel₀ : ℕ, ∀ fuel ≥ fuel₀, ∀ canOpen, sampledTrajectoryStatesToFile fuel canOpen tr = .error .ub := by
  obtain ⟨new, fuel₀, h1, h2, _⟩ := C65_whole tr hc hne hT hR hD hmax (1 / 100) (by norm_num) hcont []
  have hlen : 0 < tr.segments.length := List.length_pos_of_ne_nil hne
  have hgt : (new.map tableRow).length < 0 + tr.segments.length := by
    rw [List.length_map]
    by_contra hge
    have := (h2 (tr.segments.length - 1)).mp (by omega)
    linarith
  refine ⟨fuel₀, fun fuel hf canOpen => ?_⟩
  simp only [sampledTrajectoryStatesToFile, h1 fuel hf, ok_bind, not_true_eq_false, if_false,
    writeSegmentTimes_ub tr.segments 0 0 _ hgt (Nat.zero_le _)]
  rfl

/-- Fewer than three dimensions: nothing is written and the caller is told. -/
theorem C95_too_few_dimensions (tr : Trajectory ℝ) (hD : tr.D < 3) (fuel : ℕ) (canOpen : Bool) :
    sampledTrajectoryStatesToFile fuel canOpen tr = .ok (false, none) := by
  have h : Sampling.sampleWholeTrajectory fuel tr (1 / 100) [] = .ok (false, []) := by
    unfold Sampling.sampleWholeTrajectory
    exact (C65_refused tr).2.1 _ _ _ _ _ (.inr (.inr hD))
  simp only [sampledTrajectoryStatesToFile, h, ok_bind, Bool.false_eq_true, not_false_eq_true, if_true, res_pure]

/-- The hypotheses of `C95_table` hold of `sampleTraj4`. -/
example : ∃ (table : List (List ℝ)) (fuel₀ : ℕ),
    (∀ fuel ≥ fuel₀, sampledTrajectoryStatesToFile fuel true sampleTraj4 = .ok (true, some table)) ∧ 999 < table.length := by
  obtain ⟨h1, h2, h3, h4, h5, h6⟩ := sampleTraj4_ok
  obtain ⟨table, fuel₀, h, hl, _⟩ := C95_table sampleTraj4 h1 h2 h3 h4 h5 h6
    (by intro k _ i a b _ hb; simp [sampleTraj4] at hb) (by simp [sampleTraj4])
  exact ⟨table, fuel₀, fun f hf => (h f hf).1, (hl 999).mpr (by norm_num [sampleTraj4])⟩

/-- The hypotheses of `C95_more_segments_than_rows` hold of two segments of four milliseconds. -/
example : ∃ fuel₀ : ℕ, ∀ fuel ≥ fuel₀, ∀ canOpen, sampledTrajectoryStatesToFile fuel canOpen
    ⟨3, 1, 8 / 1000, [⟨1, 4 / 1000, [[0], [0], [0]]⟩, ⟨1, 4 / 1000, [[0], [0], [0]]⟩]⟩ = .error .ub := by
  apply C95_more_segments_than_rows
  · exact ⟨by norm_num [duration], by simp⟩
  · simp
  · simp
  · simp [Regular]
  · simp
  · norm_num
  · intro k _ i a b ha hb
    rcases i with _ | _ | i <;> simp at ha hb
    rw [← ha, ← hb]
    have e : ofCoeffs ([0] : List ℝ) = 0 := by simp [ofCoeffs]
    simp [segDeriv, derivAt, e]
  · norm_num

end Verif.Properties
