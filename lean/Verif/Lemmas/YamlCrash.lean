import Verif.Lemmas.YamlDoc

set_option linter.unusedSectionVars false

/-!
# Every beginning of a document
-/

namespace Verif.IO

open Verif.Spec

variable {K : Type} [Field K] [LinearOrder K] [IsStrictOrderedRing K] [FloorRing K] (nt : NumberText K)

/-- What may be read from the beginning `ls` of a document: an exception, or the first few segments, all of them only if there is no complaint or nothing to lose; without complaint
only if `ls` consists of whole segments. -/
def Outcome (segs : List (Segment K)) (ls : List (List Char)) (r : Res (Bool × List (Segment K))) : Prop :=
  r = .error .exc ∨ ∃ b k, k ≤ segs.length ∧ r = .ok (b, (segs.map back).take k) ∧ (b = false → segs ≠ [] → k < segs.length) ∧
    (b = true → segs ≠ [] → (∀ s ∈ segs, Solid s) → ∃ w, (w = [] ∨ ∃ m, w = [blanks m]) ∧ ls = ("segments:".toList :: ((segs.take k).map (segText nt)).flatten) ++ w)

/-- The reader has failed, or what it has leads to such an outcome. -/
def Good (segs : List (Segment K)) (ls : List (List Char)) (r : Res (Parse K)) : Prop :=
  r = .error .exc ∨ ∃ τ, r = .ok τ ∧ ∀ old, Outcome nt segs ls (segmentsFromFile (some τ.finish) old)

theorem trees_read (hf : Faithful nt) (l : List (Segment K)) (hs : ∀ s ∈ l, Storable s) (hd : ∀ s ∈ l, Declared s) :
    List.Forall₂ (fun y b => segmentFromTree y = .ok (some b)) (l.map (txtTree nt)) (l.map back) := by
  rw [List.forall₂_map_left_iff, List.forall₂_map_right_iff, List.forall₂_same]
  exact fun s h => read_txtTree nt hf s (hs s h) (hd s h)

theorem good_entry (hf : Faithful nt) (segs p r : List (Segment K)) (s : Segment K) (e : segs = p ++ s :: r) (hs : ∀ s ∈ segs, Storable s) (hd : ∀ s ∈ segs, Declared s)
    (ls : List (List Char)) (τ : Parse K) (y : Yaml K) (hτ : τ.finish = docOf (p.map (txtTree nt) ++ [y]))
    (hy : Fine s y ∧ (segmentFromTree y = .ok (some (back s)) → Solid s → ls = ("segments:".toList :: (p.map (segText nt)).flatten) ++ segText nt s)) : Good nt segs ls (.ok τ) := by
  refine .inr ⟨τ, rfl, fun old => ?_⟩
  have hp : ∀ t ∈ p, t ∈ segs := fun t ht => by rw [e]; simp [ht]
  rw [hτ, read_doc_entry _ _ (trees_read nt hf p (fun t ht => hs t (hp t ht)) (fun t ht => hd t (hp t ht)))]
  have hl : p.length < segs.length := by rw [e]; simp
  have t0 : p.map back = (segs.map back).take p.length := by rw [e]; simp
  have t2 : segs.take (p.length + 1) = p ++ [s] := by
    rw [e]
    simp [List.take_append]
  have t1 : p.map back ++ [back s] = (segs.map back).take (p.length + 1) := by
    rw [← List.map_take, t2]
    simp
  obtain ⟨hy, hw⟩ := hy
  rcases hy with h | h | h
  · rw [h]
    exact .inr ⟨false, p.length, hl.le, by rw [← t0]; rfl, fun _ _ => hl, fun h => by cases h⟩
  · rw [h]; exact .inl rfl
  · rw [h]
    refine .inr ⟨true, p.length + 1, hl, by rw [← t1]; rfl, (fun h => by cases h), fun _ _ hsol => ⟨[], .inl rfl, ?_⟩⟩
    rw [hw h (hsol s (by rw [e]; simp)), t2]
    simp

theorem good_prefix (hf : Faithful nt) (segs p r : List (Segment K)) (e : segs = p ++ r) (hs : ∀ s ∈ segs, Storable s) (hd : ∀ s ∈ segs, Declared s)
    (ls : List (List Char)) (τ : Parse K) (hτ : τ.finish = docOf (p.map (txtTree nt)))
    (hw : segs ≠ [] → ∃ w, (w = [] ∨ ∃ m, w = [blanks m]) ∧ ls = ("segments:".toList :: (p.map (segText nt)).flatten) ++ w) : Good nt segs ls (.ok τ) := by
  refine .inr ⟨τ, rfl, fun old => ?_⟩
  have hp : ∀ t ∈ p, t ∈ segs := fun t ht => by rw [e]; simp [ht]
  rw [hτ, read_doc _ _ (trees_read nt hf p (fun t ht => hs t (hp t ht)) (fun t ht => hd t (hp t ht)))]
  refine .inr ⟨true, p.length, by rw [e]; simp, by rw [e]; simp, (fun h => by cases h), fun _ hne _ => ?_⟩
  have : segs.take p.length = p := by rw [e]; simp
  rw [this]
  exact hw hne

/-- The first line. -/
theorem line_segments : parseLine nt ⟨[], none⟩ "segments:".toList = .ok ⟨[top], none⟩ := by
  have := parseLine_plain nt ⟨[], none⟩ 0 0 _ keySegments.content_colon
  rw [show ("segments".toList ++ [':']).length = 8 + 1 from rfl, place_key keySegments] at this
  exact this

theorem good_scalar (segs : List (Segment K)) (y : Yaml K) (hy : IsScalar y) (ls : List (List Char)) : Good nt segs ls (.ok ⟨[], some y⟩) := by
  refine .inr ⟨_, rfl, fun old => ?_⟩
  have hn : ∀ r, r = .ok (false, []) → Outcome nt segs ls r := fun r e =>
    .inr ⟨false, 0, Nat.zero_le _, e, fun _ hne => List.length_pos_of_ne_nil hne, fun h => by cases h⟩
  cases y with
  | null => exact hn _ rfl
  | int z => exact .inl rfl
  | real x => exact .inl rfl
  | text s => exact .inl rfl
  | seq l => exact absurd hy id
  | map l => exact absurd hy id
  | undefined => exact absurd hy id

theorem good_start (segs : List (Segment K)) (ls : List (List Char)) : Good nt segs ls (.ok ⟨[], none⟩) := by
  refine .inr ⟨_, rfl, fun old => .inr ⟨false, 0, Nat.zero_le _, rfl, fun _ hne => List.length_pos_of_ne_nil hne, fun h => by cases h⟩⟩

theorem good_top (segs : List (Segment K)) (w : List (List Char)) (hw : w = [] ∨ ∃ m, w = [blanks m]) : Good nt segs ("segments:".toList :: w) (.ok ⟨[top], none⟩) := by
  refine .inr ⟨_, rfl, fun old => .inr ⟨true, 0, Nat.zero_le _, rfl, (fun h => by cases h), fun _ _ _ => ⟨w, hw, rfl⟩⟩⟩

theorem cut_segments (segs : List (Segment K)) (j : ℕ) : Good nt segs ["segments:".toList.take j] (parseLine nt ⟨[], none⟩ ("segments:".toList.take j)) := by
  by_cases h0 : j = 0
  · subst h0
    have : parseLine nt ⟨[], none⟩ ("segments:".toList.take 0) = .ok ⟨[], none⟩ := parseLine_blank nt _ 0
    rw [this]
    exact good_start nt segs _
  · by_cases h8 : j ≤ 8
    · have e : "segments:".toList.take j = "segments".toList.take j := by
        rw [show "segments:".toList = "segments".toList ++ [':'] from rfl, List.take_append_of_le_length (by simpa using h8)]
      have hk := keySegments.take h0
      have h := parseLine_plain nt (⟨[], none⟩ : Parse K) 0 0 _ hk.content
      obtain ⟨f, hf⟩ : ∃ f, ("segments".toList.take j).length = f + 1 := ⟨_, (Nat.succ_pred_eq_of_pos (List.length_pos_of_ne_nil hk.ne)).symm⟩
      rw [hf, place_word hk] at h
      simp only [List.replicate_zero, List.nil_append, List.append_nil] at h
      rw [e, h]
      exact good_scalar nt segs _ (scalarOf_scalar nt _) _
    · rw [List.take_of_length_le (by simp; omega), line_segments]
      exact good_top nt segs [] (.inl rfl)

theorem cuts_document (hf : Faithful nt) (segs : List (Segment K)) (hs : ∀ s ∈ segs, Storable s) (hd : ∀ s ∈ segs, Declared s) :
    Cuts nt (Good nt segs) [] ⟨[], none⟩ (docLines nt segs) ∧
      ∃ τ, (docLines nt segs).foldlM (parseLine nt) ⟨[], none⟩ = .ok τ ∧ τ.finish = docOf (segs.map (txtTree nt)) := by
  by_cases hne : segs = []
  · subst hne
    have hline : parseLine nt (⟨[top], none⟩ : Parse K) "  []".toList = .ok ⟨[.map 0 [] "segments" (some (.seq []))], none⟩ := by
      have h0 := parseLine_plain nt (⟨[top], none⟩ : Parse K) 2 0 "[]".toList ⟨by simp, by simp, by simp, by simp⟩
      refine h0.trans ((place_flow nt 1 2 [']'] _).trans ?_)
      rw [flow_full' nt]
      rfl
    have hgood : ∀ ls, Good nt ([] : List (Segment K)) ls (.ok ⟨[.map 0 [] "segments" (some (.seq []))], none⟩) := fun ls =>
      good_prefix nt hf [] [] [] rfl hs hd ls _ rfl fun h => absurd rfl h
    have htop : ∀ ls, Good nt ([] : List (Segment K)) ls (.ok ⟨[top], none⟩) := fun ls =>
      .inr ⟨_, rfl, fun old => .inr ⟨true, 0, Nat.zero_le _, rfl, (fun h => by cases h), fun _ h => absurd rfl h⟩⟩
    refine ⟨⟨cut_segments nt [], _, line_segments nt, fun j => ?_, _, hline, trivial⟩, ⟨[.map 0 [] "segments" (some (.seq []))], none⟩, ?_, rfl⟩
    · show Good nt [] _ (parseLine nt ⟨[top], none⟩ ("  []".toList.take j))
      by_cases h2 : j ≤ 2
      · have : "  []".toList.take j = blanks j := by
          obtain rfl | rfl | rfl : j = 0 ∨ j = 1 ∨ j = 2 := by omega
          all_goals rfl
        rw [this, parseLine_blank]
        exact htop _
      · by_cases h3 : j = 3
        · subst h3
          have h0 := parseLine_plain nt (⟨[top], none⟩ : Parse K) 2 0 "[".toList ⟨by simp, by simp, by simp, by simp⟩
          have : parseLine nt (⟨[top], none⟩ : Parse K) ("  []".toList.take 3) = .error .exc := by
            refine h0.trans ((place_flow nt 0 2 [] _).trans ?_)
            rw [flow_open nt [] (by simp)]
            rfl
          rw [this]
          exact .inl rfl
        · rw [List.take_of_length_le (by simp; omega), hline]
          exact hgood _
    · show List.foldlM (parseLine nt) ⟨[], none⟩ ["segments:".toList, "  []".toList] = _
      rw [List.foldlM_cons, line_segments]
      simp only [ok_bind, List.foldlM_cons, List.foldlM_nil, hline]
      rfl
  · have hready : Ready (⟨[top], none⟩ : Parse K) (([] : List (Segment K)).map (txtTree nt)) := rfl
    obtain ⟨hc, τ, hτ, hfi⟩ := cuts_segments nt hf (Good nt segs) (fun _ => .inl rfl) "segments:".toList segs [] hs hd
      (fun p s r e ls τ y => good_entry nt hf segs p r s e hs hd ls τ y)
      (fun p r e _ τ m hτ => good_prefix nt hf segs p r e hs hd _ τ hτ fun _ => ⟨[blanks m], .inr ⟨m, rfl⟩, rfl⟩) ⟨[top], none⟩ hready
      (fun m => good_top nt segs [blanks m] (.inr ⟨m, rfl⟩))
    have e : docLines nt segs = "segments:".toList :: (segs.map (segText nt)).flatten := by rw [docLines, if_neg hne]
    rw [e]
    refine ⟨⟨cut_segments nt segs, _, line_segments nt, hc⟩, τ, ?_, hfi hne⟩
    rw [List.foldlM_cons, line_segments]
    exact hτ

theorem noline_decimal (n : ℕ) : '\n' ∉ decimal n := fun h => (isDigit_ne (decimal_digits n _ h)).2.2.2.2.2.2.2.1 rfl

theorem noline_coefficients (hf : Faithful nt) (p : Poly K) : '\n' ∉ commaSep (p.map nt.write) := by
  intro h
  have h4 := inner_chars nt hf p '\n' h
  exact h4.2.2.2 rfl

theorem noline_open : '\n' ∉ "      - [".toList := by decide

theorem noline_close : '\n' ∉ "]".toList := by decide

theorem noline_row (hf : Faithful nt) (p : Poly K) : '\n' ∉ rowText nt p := fun h =>
  (List.mem_append.mp h).elim (fun h => (List.mem_append.mp h).elim noline_open (noline_coefficients nt hf p)) noline_close

theorem noline_rows (hf : Faithful nt) (ps : List (Poly K)) : ∀ l ∈ ps.map (rowText nt), '\n' ∉ l :=
  List.forall_mem_map.mpr fun p _ => noline_row nt hf p

theorem noline (hf : Faithful nt) (segs : List (Segment K)) : ∀ l ∈ docLines nt segs, '\n' ∉ l := by
  intro l hl
  rw [docLines, List.mem_cons] at hl
  rcases hl with rfl | hl
  · decide
  · split at hl
    · rw [List.mem_singleton] at hl
      subst hl
      decide
    · obtain ⟨t, ht, hl⟩ := List.mem_flatten.mp hl
      obtain ⟨s, _, rfl⟩ := List.mem_map.mp ht
      rw [segText, List.mem_append] at hl
      rcases hl with hl | hl
      · simp only [List.mem_cons, List.not_mem_nil, or_false] at hl
        rcases hl with rfl | rfl | rfl | rfl
        · simp only [List.mem_append, noline_decimal, or_false]; decide
        · simp only [List.mem_append, noline_decimal, or_false]; decide
        · simp only [List.mem_append, noline_decimal, or_false]; decide
        · decide
      · split at hl
        · rw [List.mem_singleton] at hl
          subst hl
          decide
        · exact noline_rows nt hf s.polys l hl

theorem docLines_ne (segs : List (Segment K)) : docLines nt segs ≠ [] := by simp [docLines]

/-- The whole document. -/
theorem parse_document (hf : Faithful nt) (segs : List (Segment K)) (hs : ∀ s ∈ segs, Storable s) (hd : ∀ s ∈ segs, Declared s) :
    ∃ t, documentText nt segs = .ok t ∧ parseText nt t = .ok (docOf (segs.map (txtTree nt))) ∧ ∀ old, segmentsFromTextFile nt (some t) old = .ok (true, segs.map back) := by
  obtain ⟨_, τ, hτ, hfi⟩ := cuts_document nt hf segs hs hd
  have hp : parseText nt (['\n'].intercalate (docLines nt segs)) = .ok (docOf (segs.map (txtTree nt))) := by
    rw [parseText, List.splitOn_intercalate '\n' (noline nt hf segs) (docLines_ne nt segs), hτ, ← hfi]
    rfl
  refine ⟨_, documentText_ok nt segs hs hd, hp, fun old => ?_⟩
  simp only [segmentsFromTextFile, hp, ok_bind]
  exact read_doc _ _ (trees_read nt hf segs hs hd) old

/-- Every beginning of the document. -/
theorem parse_cut (hf : Faithful nt) (segs : List (Segment K)) (hs : ∀ s ∈ segs, Storable s) (hd : ∀ s ∈ segs, Declared s) (t : List Char) (ht : documentText nt segs = .ok t)
    (n : ℕ) (old : List (Segment K)) : ∃ ls, savingStopped t n = ['\n'].intercalate ls ∧ Outcome nt segs ls (segmentsFromTextFile nt (some (savingStopped t n)) old) := by
  have e : t = ['\n'].intercalate (docLines nt segs) := Except.ok.inj (ht.symm.trans (documentText_ok nt segs hs hd))
  subst e
  obtain ⟨i, j, hi, hsp⟩ := cut_lines (docLines nt segs) (docLines_ne nt segs) (noline nt hf segs) n
  have := cuts_use nt (Good nt segs) [] _ _ (cuts_document nt hf segs hs hd).1 i j hi
  refine ⟨(docLines nt segs).take i ++ [((docLines nt segs)[i]).take j], ?_, ?_⟩
  · rw [← hsp, savingStopped, List.intercalate_splitOn]
  · simp only [segmentsFromTextFile, savingStopped, parseText, hsp]
    rw [List.nil_append] at this
    rcases this with e | ⟨τ, e, h⟩
    · rw [e]; exact .inl rfl
    · rw [e]; exact h old

end Verif.IO
