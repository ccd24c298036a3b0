import Verif.Lemmas.YamlCrash
import Verif.Properties.IO

set_option linter.unusedSectionVars false

/-!
# Property C105 (and C64 for the text): files that are saved, and files whose saving was interrupted

`Spec.Faithful` (in `Verif.Spec.YamlText`): floating point numbers read back as what was written. `Spec.Storable`, `Spec.Declared`, `Spec.ReadsBackAs` (in `Verif.Spec.IO`).
`savingStopped t n`: what is in the file when the program ends after `n` characters of the text `t` were written.
-/

namespace Verif.Properties

open Spec _root_.Verif.IO

section
variable {K : Type} [Field K] [LinearOrder K] [IsStrictOrderedRing K] [FloorRing K] (nt : NumberText K)

/-- The characters that are written to a file read back as the same segments, with the durations rounded down to nanoseconds; a file that cannot be opened stays as it was. -/
theorem C64_text_round_trip (hf : Faithful nt) (segs : List (Segment K)) (hs : ∀ s ∈ segs, Storable s) (hd : ∀ s ∈ segs, Declared s) (before : Option (List Char)) :
    ∃ t segs', segmentsToTextFile nt true segs before = .ok (true, some t) ∧ segmentsToTextFile nt false segs before = .ok (false, before) ∧
      (∀ old, segmentsFromTextFile nt (some t) old = .ok (true, segs')) ∧ List.Forall₂ ReadsBackAs segs segs' := by
  obtain ⟨t, h1, _, h3⟩ := parse_document nt hf segs hs hd
  refine ⟨t, segs.map back, ?_, ?_, h3, back_forall₂ segs hs⟩ <;> simp only [segmentsToTextFile, h1, ok_bind, res_pure] <;> rfl

theorem forall₂_take {α β : Type*} {R : α → β → Prop} {l : List α} {m : List β} (h : List.Forall₂ R l m) (k : ℕ) : List.Forall₂ R (l.take k) (m.take k) := by
  induction h generalizing k with
  | nil => simp
  | cons h _ ih =>
    cases k with
    | zero => simp
    | succ k => simpa using ⟨h, ih k⟩

/-- Wherever the saving of segments is interrupted: reading what is then in the file throws an exception, or puts the first `k` of the saved segments into the list and nothing
else, whatever the list held before; and if reading is refused, at least one segment is missing. There is no undefined behaviour, and no segment is ever read differently. -/
theorem C105_cut_partial (hf : Faithful nt) (segs : List (Segment K)) (hs : ∀ s ∈ segs, Storable s) (hd : ∀ s ∈ segs, Declared s) (before : Option (List Char)) (t : List Char)
    (ht : segmentsToTextFile nt true segs before = .ok (true, some t)) (n : ℕ) (old : List (Segment K)) :
    segmentsFromTextFile nt (some (savingStopped t n)) old = .error .exc ∨
    ∃ ok k segs', segmentsFromTextFile nt (some (savingStopped t n)) old = .ok (ok, segs') ∧ k ≤ segs.length ∧ List.Forall₂ ReadsBackAs (segs.take k) segs' ∧
      (ok = false → segs ≠ [] → k < segs.length) := by
  obtain ⟨t', h1, _, _⟩ := parse_document nt hf segs hs hd
  have e : t' = t := by
    simp only [segmentsToTextFile, h1, ok_bind, res_pure, if_true] at ht
    exact Option.some.inj (Prod.mk.inj (Except.ok.inj ht)).2
  rw [e] at h1
  obtain ⟨_, _, ho⟩ := parse_cut nt hf segs hs hd t h1 n old
  rcases ho with h | ⟨b, k, hk, h, hb, _⟩
  · exact .inl h
  · exact .inr ⟨b, k, _, h, hk, forall₂_take (back_forall₂ segs hs) k, hb⟩

theorem intercalate_prefix (l₁ l₂ : List (List Char)) (h : l₁ ≠ []) (hp : l₁ <+: l₂) : ['\n'].intercalate l₁ <+: ['\n'].intercalate l₂ := by
  induction l₁ generalizing l₂ with
  | nil => exact absurd rfl h
  | cons a l₁ ih =>
    obtain ⟨r, rfl⟩ := hp
    cases l₁ with
    | nil =>
      cases r with
      | nil => simp
      | cons b r => simp [List.intercalate, List.intersperse]
    | cons b l₁ =>
      have := ih (b :: l₁ ++ r) (by simp) ⟨r, rfl⟩
      simp only [List.intercalate, List.cons_append, List.intersperse_cons_cons, List.flatten_cons] at this ⊢
      exact (List.prefix_append_right_inj _).mpr (List.cons_prefix_cons.mpr ⟨rfl, this⟩)

theorem intercalate_two (a b : List Char) : ['\n'].intercalate [a, b] = a ++ '\n' :: b := by simp [List.intercalate]

theorem intercalate_one (a : List Char) : ['\n'].intercalate [a] = a := by simp [List.intercalate]

theorem intercalate_last (l : List (List Char)) (h : l ≠ []) (a : List Char) : ['\n'].intercalate (l ++ [a]) = ['\n'].intercalate l ++ '\n' :: a := by
  induction l with
  | nil => exact absurd rfl h
  | cons b l ih =>
    cases l with
    | nil => simp [List.intercalate]
    | cons c l =>
      have := ih (by simp)
      simp only [List.intercalate, List.cons_append, List.intersperse_cons_cons, List.flatten_cons] at this ⊢
      rw [this]
      simp

/-- When reading an interrupted file reports success, the file consists of whole segments, namely the ones that are read, apart from blanks and a line break at the end: a file that
ends within a segment is never taken for complete. (The segments have dimensions and coefficients.) -/
theorem C105_success_partial (hf : Faithful nt) (segs : List (Segment K)) (hne : segs ≠ []) (hs : ∀ s ∈ segs, Storable s) (hd : ∀ s ∈ segs, Declared s)
    (hD : ∀ s ∈ segs, s.polys ≠ []) (hN : ∀ s ∈ segs, s.N ≠ 0) (before : Option (List Char)) (t : List Char)
    (ht : segmentsToTextFile nt true segs before = .ok (true, some t)) (n : ℕ) (old segs' : List (Segment K))
    (h : segmentsFromTextFile nt (some (savingStopped t n)) old = .ok (true, segs')) :
    ∃ k t' w, k ≤ segs.length ∧ List.Forall₂ ReadsBackAs (segs.take k) segs' ∧ savingStopped t n = t' ++ w ∧ (∀ c ∈ w, c = ' ' ∨ c = '\n') ∧
      (k = 0 → t' = "segments:".toList) ∧ (0 < k → segmentsToTextFile nt true (segs.take k) none = .ok (true, some t')) := by
  obtain ⟨t', h1, _, _⟩ := parse_document nt hf segs hs hd
  have e : t' = t := by
    simp only [segmentsToTextFile, h1, ok_bind, res_pure, if_true] at ht
    exact Option.some.inj (Prod.mk.inj (Except.ok.inj ht)).2
  rw [e] at h1
  obtain ⟨ls, hls, ho⟩ := parse_cut nt hf segs hs hd t h1 n old
  rcases ho with h' | ⟨b, k, hk, h', _, hb⟩
  · rw [h] at h'; cases h'
  · rw [h] at h'
    obtain ⟨rfl, rfl⟩ := Prod.mk.inj (Except.ok.inj h')
    obtain ⟨w, hw, rfl⟩ := hb rfl hne fun s h => ⟨hD s h, hN s h⟩
    have htext : ∃ w', savingStopped t n = ['\n'].intercalate ("segments:".toList :: ((segs.take k).map (segText nt)).flatten) ++ w' ∧ ∀ c ∈ w', c = ' ' ∨ c = '\n' := by
      rcases hw with rfl | ⟨m, rfl⟩
      · exact ⟨[], by rw [hls]; simp, by simp⟩
      · refine ⟨'\n' :: blanks m, by rw [hls, intercalate_last _ (by simp)], fun c hc => ?_⟩
        rcases List.mem_cons.mp hc with h | h
        · exact .inr h
        · exact .inl (List.eq_of_mem_replicate h)
    obtain ⟨w', hw', hc⟩ := htext
    refine ⟨k, _, w', hk, forall₂_take (back_forall₂ segs hs) k, hw', hc, ?_, ?_⟩
    · rintro rfl
      simp only [List.take_zero, List.map_nil, List.flatten_nil, intercalate_one]
    · intro hk0
      have hs' : ∀ s ∈ segs.take k, Storable s := fun s h => hs s (List.mem_of_mem_take h)
      have hd' : ∀ s ∈ segs.take k, Declared s := fun s h => hd s (List.mem_of_mem_take h)
      have hne' : segs.take k ≠ [] := by
        intro e
        rcases List.take_eq_nil_iff.mp e with h | h
        · omega
        · exact hne h
      have hdoc : docLines nt (segs.take k) = "segments:".toList :: ((segs.take k).map (segText nt)).flatten := by rw [docLines, if_neg hne']
      simp only [segmentsToTextFile, documentText_ok nt _ hs' hd', hdoc, ok_bind, res_pure, if_true]

/-- The same for a whole trajectory: reading throws, aborts because no segment was read, or gives a trajectory of the first `k` segments,
with the same report of success as for the segments. -/
theorem C105_trajectory_partial (hf : Faithful nt) (tr : Trajectory K) (hc : Consistent tr) (hs : ∀ s ∈ tr.segments, Storable s) (hd : ∀ s ∈ tr.segments, Declared s)
    (before : Option (List Char)) (t : List Char) (ht : segmentsToTextFile nt true tr.segments before = .ok (true, some t)) (n : ℕ) :
    trajectoryFromTextFile nt (some (savingStopped t n)) = .error .exc ∨ trajectoryFromTextFile nt (some (savingStopped t n)) = .error .check ∨
    ∃ ok k tr', trajectoryFromTextFile nt (some (savingStopped t n)) = .ok (ok, tr') ∧ segmentsFromTextFile nt (some (savingStopped t n)) [] = .ok (ok, tr'.segments) ∧ 0 < k ∧ k ≤ tr.segments.length ∧ tr'.D = tr.D ∧ tr'.N = tr.N ∧ Consistent tr' ∧
      List.Forall₂ ReadsBackAs (tr.segments.take k) tr'.segments ∧ (ok = false → k < tr.segments.length) := by
  rcases C105_cut_partial nt hf tr.segments hs hd before t ht n [] with h | ⟨ok, k, segs', h, hk, hr, hb⟩
  · left
    simp only [trajectoryFromTextFile, h]
    rfl
  · right
    by_cases h0 : segs' = []
    · left
      subst h0
      simp only [trajectoryFromTextFile, h, ok_bind]
      rfl
    · right
      have hdn : ∀ s ∈ segs', s.polys.length = tr.D ∧ s.N = tr.N := by
        intro s hs'
        obtain ⟨i, hi, rfl⟩ := List.getElem_of_mem hs'
        have hi' : i < (tr.segments.take k).length := by rw [hr.length_eq]; exact hi
        have hR := hr.get hi' hi
        have hm : (tr.segments.take k)[i] ∈ tr.segments := List.mem_of_mem_take (List.getElem_mem hi')
        have := hc.2 _ hm
        simp only [List.get_eq_getElem] at hR
        rw [hR.polynomials, hR.coefficients]
        exact this
      have hset := setSegments_ok tr.D tr.N segs' h0 hdn
      have hk0 : 0 < k := by
        rcases Nat.eq_zero_or_pos k with rfl | h
        · exact absurd (by simpa using hr) h0
        · exact h
      refine ⟨ok, k, ⟨tr.D, tr.N, duration segs', segs'⟩, ?_, h, hk0, hk, rfl, rfl, ⟨rfl, hdn⟩, hr, fun hok => hb hok ?_⟩
      · simp only [trajectoryFromTextFile, h, ok_bind, hset, res_pure]
      · intro e
        rw [e] at hk
        simp at hk
        omega

/-- What is missing: every beginning of the list of segments is what some interruption leaves, and reading it reports success. -/
theorem C105_refuted_every_length (hf : Faithful nt) (segs : List (Segment K)) (hs : ∀ s ∈ segs, Storable s) (hd : ∀ s ∈ segs, Declared s) (before : Option (List Char)) :
    ∃ t, segmentsToTextFile nt true segs before = .ok (true, some t) ∧ ∀ k ≤ segs.length, ∃ n segs', (k < segs.length → n < t.length) ∧
      (∀ old, segmentsFromTextFile nt (some (savingStopped t n)) old = .ok (true, segs')) ∧ List.Forall₂ ReadsBackAs (segs.take k) segs' := by
  refine ⟨['\n'].intercalate (docLines nt segs), by simp only [segmentsToTextFile, documentText_ok nt segs hs hd, ok_bind, res_pure, if_true], fun k hk => ?_⟩
  by_cases hne : segs = []
  · subst hne
    obtain ⟨t, h1, _, h3⟩ := parse_document nt hf [] hs hd
    have e : t = ['\n'].intercalate (docLines nt []) := Except.ok.inj (h1.symm.trans (documentText_ok nt [] hs hd))
    refine ⟨t.length, [], fun h => by simp at h, fun old => ?_, by simp⟩
    rw [savingStopped, ← e, List.take_length]
    exact h3 old
  · -- the text of the first `k` segments
    have hdoc : docLines nt segs = "segments:".toList :: (segs.map (segText nt)).flatten := by rw [docLines, if_neg hne]
    rcases Nat.eq_zero_or_pos k with rfl | hk0
    · refine ⟨9, [], fun _ => ?_, fun old => ?_, by simp⟩
      · obtain ⟨s, r, rfl⟩ := List.exists_cons_of_ne_nil hne
        have h1 : ["segments:".toList, "  - N: ".toList ++ decimal s.N] <+: docLines nt (s :: r) := by rw [hdoc]; exact ⟨_, rfl⟩
        have h2 := (intercalate_prefix _ _ (by simp) h1).length_le
        rw [intercalate_two, List.length_append, List.length_cons, show ("segments:".toList).length = 9 from rfl] at h2
        omega
      · have e : savingStopped (['\n'].intercalate (docLines nt segs)) 9 = "segments:".toList := by
          have h1 : ["segments:".toList] <+: docLines nt segs := by rw [hdoc]; exact ⟨_, rfl⟩
          have := intercalate_prefix _ _ (by simp) h1
          have h2 := List.prefix_iff_eq_take.mp this
          rw [intercalate_one] at h2
          exact h2.symm
        rw [e]
        have hp : parseText nt "segments:".toList = .ok (.map [("segments", .null)] : Yaml K) := by
          rw [parseText, splitOn_line _ (by decide), List.foldlM_cons, line_segments]
          rfl
        simp only [segmentsFromTextFile, hp, ok_bind]
        rfl
    · have hs' : ∀ s ∈ segs.take k, Storable s := fun s h => hs s (List.mem_of_mem_take h)
      have hd' : ∀ s ∈ segs.take k, Declared s := fun s h => hd s (List.mem_of_mem_take h)
      have hne' : segs.take k ≠ [] := by
        intro e
        rcases List.take_eq_nil_iff.mp e with h | h
        · omega
        · exact hne h
      obtain ⟨t, h1, _, h3⟩ := parse_document nt hf (segs.take k) hs' hd'
      have e : t = ['\n'].intercalate (docLines nt (segs.take k)) := Except.ok.inj (h1.symm.trans (documentText_ok nt _ hs' hd'))
      have hdoc' : docLines nt (segs.take k) = "segments:".toList :: ((segs.take k).map (segText nt)).flatten := by rw [docLines, if_neg hne']
      have hsplit : docLines nt segs = docLines nt (segs.take k) ++ ((segs.drop k).map (segText nt)).flatten := by
        rw [hdoc, hdoc', List.cons_append, ← List.flatten_append, ← List.map_append, List.take_append_drop]
      have hpre : docLines nt (segs.take k) <+: docLines nt segs := ⟨_, hsplit.symm⟩
      have hp := intercalate_prefix _ _ (docLines_ne nt _) hpre
      rw [← e] at hp
      refine ⟨t.length, (segs.take k).map back, fun hlt => ?_, fun old => ?_, back_forall₂ _ hs'⟩
      · refine lt_of_le_of_ne hp.length_le fun hl => ?_
        have heq := hp.eq_of_length hl
        have h4 := List.splitOn_intercalate '\n' (noline nt hf (segs.take k)) (docLines_ne nt _)
        have h5 := List.splitOn_intercalate '\n' (noline nt hf segs) (docLines_ne nt _)
        rw [← e, heq, h5] at h4
        have h6 := congrArg List.length h4
        rw [hsplit, List.length_append] at h6
        obtain ⟨s, r, hr⟩ := List.exists_cons_of_ne_nil (show segs.drop k ≠ [] by simp; omega)
        have hpos : ((segs.drop k).map (segText nt)).flatten ≠ [] := by
          rw [hr, List.map_cons, List.flatten_cons, segText, List.cons_append, List.cons_append]
          exact List.cons_ne_nil _ _
        have := List.length_pos_of_ne_nil hpos
        omega
      · have h2 := List.prefix_iff_eq_take.mp hp
        rw [savingStopped, ← h2]
        exact h3 old

end

/-! ### Rational numbers as text -/

/-- A whole number. -/
def intText (z : ℤ) : List Char := if z < 0 then '-' :: decimal z.natAbs else decimal z.natAbs

/-- Fractions with `e` between numerator and denominator. -/
def ratText : NumberText ℚ where
  write x := if x.den = 1 then intText x.num else intText x.num ++ 'e' :: decimal x.den
  read s := match s.splitOn 'e' with
    | [a] => (readInt a).map fun z : ℤ => (z : ℚ)
    | [a, b] => match readInt a, readNat b with
      | some z, some n => some (z / n)
      | _, _ => none
    | _ => none

theorem readNat_decimal (n : ℕ) : readNat (decimal n) = some n := by
  rw [readNat, if_pos ⟨decimal_ne n, List.all_eq_true.mpr (decimal_digits n)⟩, decimal, Nat.ofDigitChars_toDigits (by norm_num) (by norm_num)]

theorem readInt_intText (z : ℤ) : readInt (intText z) = some z := by
  unfold intText
  split
  · rename_i h
    show Option.map (fun n : ℕ => -(n : ℤ)) (readNat (decimal z.natAbs)) = some z
    rw [readNat_decimal]
    show some (-(z.natAbs : ℤ)) = some z
    congr 1
    omega
  · rename_i h
    rw [readInt_digits _ (decimal_ne _) (decimal_digits _), decimal, Nat.ofDigitChars_toDigits (by norm_num) (by norm_num)]
    congr 1
    omega

theorem intText_chars (z : ℤ) : ∀ c ∈ intText z, c.isDigit = true ∨ c = '-' := by
  intro c hc
  unfold intText at hc
  split at hc
  · rcases List.mem_cons.mp hc with h | h
    · exact .inr h
    · exact .inl (decimal_digits _ _ h)
  · exact .inl (decimal_digits _ _ hc)

theorem intText_ne (z : ℤ) : intText z ≠ [] := by
  unfold intText
  split
  · simp
  · exact decimal_ne _

theorem e_not_intText (z : ℤ) : 'e' ∉ intText z := fun h => by rcases intText_chars z _ h with h | h <;> revert h <;> decide

theorem e_not_decimal (n : ℕ) : 'e' ∉ decimal n := fun h => by have := decimal_digits n _ h; revert this; decide

theorem splitOn_one (a : List Char) (h : 'e' ∉ a) : a.splitOn 'e' = [a] := by
  have := List.splitOn_intercalate 'e' (ls := [a]) (by simpa using h) (by simp)
  simpa using this

theorem readNat_none (s : List Char) (h : 'e' ∈ s) : readNat s = none := by
  rw [readNat, if_neg]
  intro hh
  have := List.all_eq_true.mp hh.2 _ h
  revert this
  decide

theorem readInt_none (s : List Char) (h : 'e' ∈ s) : readInt s = none := by
  unfold readInt
  split
  · rename_i s
    rcases List.mem_cons.mp h with h | h
    · exact absurd h (by decide)
    · rw [readNat_none _ h]; rfl
  · rw [readNat_none _ h]; rfl

theorem ratText_faithful : Faithful ratText where
  read_write x := by
    unfold ratText
    by_cases h : x.den = 1
    · simp only [if_pos h]
      rw [splitOn_one _ (e_not_intText _)]
      simp only [readInt_intText, Option.map_some]
      congr 1
      exact (Rat.den_eq_one_iff x).mp h
    · simp only [if_neg h]
      rw [List.splitOn_append_cons_self_of_not_mem (e_not_intText _), splitOn_one _ (e_not_decimal _)]
      simp only [readInt_intText, readNat_decimal]
      congr 1
      exact Rat.num_div_den x
  whole x z h := by
    unfold ratText at h
    simp only at h
    split at h
    · rename_i hd
      rw [readInt_intText] at h
      rw [← Option.some.inj h]
      exact ((Rat.den_eq_one_iff x).mp hd).symm
    · rw [readInt_none _ (by simp)] at h
      cases h
  nonempty x := by
    unfold ratText
    simp only
    split
    · exact intText_ne _
    · simp
  chars x c hc := by
    have hi : ∀ c ∈ intText x.num, c.isDigit = true ∨ c ∈ ['.', '-', '+', 'e'] := fun c hc => by
      rcases intText_chars _ c hc with h | h
      · exact .inl h
      · right; rw [h]; decide
    unfold ratText at hc
    simp only at hc
    split at hc
    · exact hi c hc
    · rcases List.mem_append.mp hc with h | h
      · exact hi c h
      · rcases List.mem_cons.mp h with h | h
        · right; rw [h]; decide
        · exact .inl (decimal_digits _ _ h)

/-- The hypotheses of `C64_text_round_trip` and `C105_cut_partial` hold of `ioSegs`. -/
example : ∃ t, segmentsToTextFile ratText true ioSegs none = .ok (true, some t) ∧ ∀ n old,
    segmentsFromTextFile ratText (some (savingStopped t n)) old = .error .exc ∨
    ∃ ok k segs', segmentsFromTextFile ratText (some (savingStopped t n)) old = .ok (ok, segs') ∧ k ≤ 2 ∧ List.Forall₂ ReadsBackAs (ioSegs.take k) segs' ∧ (ok = false → ioSegs ≠ [] → k < 2) := by
  obtain ⟨_, hs, hd, _⟩ := ioSegs_ok
  obtain ⟨t, _, h1, _⟩ := C64_text_round_trip ratText ratText_faithful ioSegs hs hd none
  exact ⟨t, h1, fun n old => C105_cut_partial ratText ratText_faithful ioSegs hs hd none t h1 n old⟩

/-- The hypotheses of `C105_success_partial` hold of `ioSegs` and the whole file. -/
example : ∃ t segs', segmentsToTextFile ratText true ioSegs none = .ok (true, some t) ∧ segmentsFromTextFile ratText (some (savingStopped t t.length)) [] = .ok (true, segs') ∧
    ∃ k t' w, k ≤ 2 ∧ List.Forall₂ ReadsBackAs (ioSegs.take k) segs' ∧ savingStopped t t.length = t' ++ w ∧ (∀ c ∈ w, c = ' ' ∨ c = '\n') ∧
      (k = 0 → t' = "segments:".toList) ∧ (0 < k → segmentsToTextFile ratText true (ioSegs.take k) none = .ok (true, some t')) := by
  obtain ⟨hne, hs, hd, hD⟩ := ioSegs_ok
  obtain ⟨t, segs', h1, _, h3, _⟩ := C64_text_round_trip ratText ratText_faithful ioSegs hs hd none
  have h : segmentsFromTextFile ratText (some (savingStopped t t.length)) [] = .ok (true, segs') := by rw [savingStopped, List.take_length]; exact h3 []
  exact ⟨t, segs', h1, h, C105_success_partial ratText ratText_faithful ioSegs hne hs hd hD (by simp [ioSegs]) none t h1 t.length [] segs' h⟩

/-- The saving of a trajectory is interrupted, and reading reports success with a shorter one; the previous contents of the file are gone as well: two segments of three and two
seconds become one of three seconds. -/
theorem C105_refuted : ∃ (t : List Char) (n : ℕ), (∀ before, segmentsToTextFile ratText true ioSegs before = .ok (true, some t)) ∧ n < t.length ∧
    (∀ old, segmentsFromTextFile ratText (some (savingStopped t n)) old = .ok (true, [⟨2, 3, [[1, 2], [0, -1]]⟩])) ∧
    trajectoryFromTextFile ratText (some (savingStopped t n)) = .ok (true, ⟨2, 2, 3, [⟨2, 3, [[1, 2], [0, -1]]⟩]⟩) ∧
    (∀ old, segmentsFromTextFile ratText (some (savingStopped t 0)) old = .ok (false, [])) := by
  obtain ⟨_, hs, hd, _⟩ := ioSegs_ok
  obtain ⟨t, h1, h2⟩ := C105_refuted_every_length ratText ratText_faithful ioSegs hs hd none
  obtain ⟨n, segs', hn, h3, h4⟩ := h2 1 (by simp [ioSegs])
  have e : segs' = [⟨2, 3, [[1, 2], [0, -1]]⟩] := by
    obtain ⟨s', rfl⟩ : ∃ s', segs' = [s'] := by
      have := h4.length_eq
      rw [← List.length_eq_one_iff, ← this]
      rfl
    rw [List.cons.injEq]
    refine ⟨readsBack_whole ⟨2, 3, [[1, 2], [0, -1]]⟩ s' 3000000000 (by norm_num) ?_, rfl⟩
    have h4' : List.Forall₂ ReadsBackAs [(⟨2, 3, [[1, 2], [0, -1]]⟩ : Segment ℚ)] [s'] := h4
    exact (List.forall₂_cons.mp h4').1
  subst e
  refine ⟨t, n, fun before => ?_, hn (by simp [ioSegs]), h3, ?_, fun old => ?_⟩
  · simpa [segmentsToTextFile] using h1
  · simp only [trajectoryFromTextFile, h3, ok_bind]
    have := setSegments_ok 2 2 [(⟨2, 3, [[1, 2], [0, -1]]⟩ : Segment ℚ)] (by simp) (by simp)
    rw [this]
    simp only [duration, ok_bind, List.map_cons, List.map_nil, List.sum_cons, List.sum_nil, add_zero]
    rfl
  · rfl

end Verif.Properties
