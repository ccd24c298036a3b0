import Verif.Lemmas.YamlCut

set_option linter.unusedSectionVars false

/-!
# Documents that are cut off
-/

namespace Verif.IO

open Verif.Spec

section Row
variable {K : Type} (nt : NumberText K)

theorem commaSep_chars (ls : List (List Char)) : ∀ c ∈ commaSep ls, (∃ l ∈ ls, c ∈ l) ∨ c = ',' ∨ c = ' ' := by
  induction ls with
  | nil => intro c hc; cases hc
  | cons a ls ih =>
    cases ls with
    | nil =>
      intro c hc
      exact .inl ⟨a, by simp, hc⟩
    | cons b ls =>
      intro c hc
      simp only [commaSep, List.mem_append] at hc
      rcases hc with (hc | hc) | hc
      · exact .inl ⟨a, by simp, hc⟩
      · simp at hc
        right; exact hc
      · rcases ih c hc with ⟨l, hl, h⟩ | h
        · exact .inl ⟨l, by simp at hl ⊢; tauto, h⟩
        · exact .inr h

theorem commaSep_eq (a : List Char) (ls : List (List Char)) : commaSep (a :: ls) = [','].intercalate (a :: ls.map (' ' :: ·)) := by
  induction ls generalizing a with
  | nil => simp [commaSep]
  | cons b ls ih =>
    simp only [commaSep, List.map_cons, List.intercalate_cons_cons, ih b]
    rw [show (", ".toList) = [',', ' '] from rfl]
    cases ls with
    | nil => simp
    | cons c ls => simp [List.intercalate_cons_cons]

theorem trim_self (s : List Char) (h : ' ' ∉ s) : trim s = s := by
  have h1 := dropWhile_blanks 0 s (fun e => h (List.mem_of_head? e))
  have h2 := rdropWhile_blanks s 0 (fun e => h (List.mem_of_getLast? e))
  simp only [List.replicate_zero, List.nil_append, List.append_nil] at h1 h2
  rw [trim, h1, h2]

theorem trim_blank (s : List Char) (h : ' ' ∉ s) : trim (' ' :: s) = s := by
  have h1 := dropWhile_blanks 1 s (fun e => h (List.mem_of_head? e))
  have h2 := rdropWhile_blanks s 0 (fun e => h (List.mem_of_getLast? e))
  simp only [List.append_nil, List.replicate_zero] at h2
  rw [trim, show (' ' :: s) = blanks 1 ++ s from rfl, h1, h2]

variable [Ring K]

theorem inner_chars (hf : Faithful nt) (p : List K) : ∀ c ∈ commaSep (p.map nt.write), c ≠ '#' ∧ c ≠ '[' ∧ c ≠ ']' ∧ c ≠ '\n' := by
  intro c hc
  rcases commaSep_chars _ c hc with ⟨l, hl, h⟩ | rfl | rfl
  · obtain ⟨x, _, rfl⟩ := List.mem_map.mp hl
    obtain ⟨_, h2, _, h4, h5, _, h7, _⟩ := number_ne (hf.chars x c h)
    exact ⟨h2, h4, h5, h7⟩
  · decide
  · decide

theorem flow_full (hf : Faithful nt) (p : List K) : flow nt (commaSep (p.map nt.write) ++ [']']) = .ok (.seq (p.map fun x => scalarOf nt (nt.write x))) := by
  have hc := inner_chars nt hf p
  unfold flow
  rw [if_pos]
  · rw [List.dropLast_concat]
    cases p with
    | nil => rfl
    | cons x p =>
      have hb : ∀ x, ' ' ∉ nt.write x := fun x hm => (number_ne (hf.chars x _ hm)).1 rfl
      have hcm : ∀ x, ',' ∉ nt.write x := fun x hm => (number_ne (hf.chars x _ hm)).2.2.2.2.2.1 rfl
      rw [if_neg]
      · rw [List.map_cons, commaSep_eq, List.splitOn_intercalate ',']
        · simp only [List.map_cons, List.map_map, trim_self _ (hb x)]
          congr 3
          apply List.map_congr_left
          intro y _
          simp only [Function.comp]
          rw [trim_blank _ (hb y)]
        · intro l hl
          simp only [List.mem_cons, List.map_map, List.mem_map, Function.comp] at hl
          rcases hl with rfl | ⟨y, _, rfl⟩
          · exact hcm x
          · intro hm
            rcases List.mem_cons.mp hm with hm | hm
            · cases hm
            · exact hcm y hm
        · simp
      · intro hall
        obtain ⟨c, hcx⟩ := List.exists_mem_of_ne_nil _ (hf.nonempty x)
        have hmem : c ∈ commaSep ((x :: p).map nt.write) := by
          cases p with
          | nil => simpa [commaSep] using hcx
          | cons y p => simp only [List.map_cons, commaSep, List.mem_append]; exact .inl (.inl hcx)
        have := List.all_eq_true.mp hall c hmem
        have hne : c ≠ ' ' := fun e => hb x (e ▸ hcx)
        simp [isBlank, hne] at this
  · refine ⟨by simp, ?_, ?_⟩
    · intro hm
      rcases List.mem_append.mp hm with hm | hm
      · exact (hc _ hm).2.1 rfl
      · simp at hm
    · rw [List.dropLast_concat]
      intro hm
      exact (hc _ hm).2.2.1 rfl

theorem flow_full' : flow nt [']'] = .ok (.seq []) := rfl

theorem flow_open (u : List Char) (h : ']' ∉ u) : flow nt u = .error .exc := by
  unfold flow
  rw [if_neg]
  rintro ⟨h1, _⟩
  exact h (List.mem_of_getLast? h1)

theorem place_flow (f col : ℕ) (u : List Char) (σ : Parse K) : place nt (f + 1) col ('[' :: u) σ = (do σ.give col (← flow nt u)) := by
  rw [place, if_neg (by simp), if_pos rfl]
  rfl

/-- The line of one dimension. -/
theorem line_row (hf : Faithful nt) (p : List K) (ρ : Parse K) (ys : List (Yaml K)) (d : List (String × Yaml K)) (rows : List (Yaml K))
    (hρ : (ρ.closeTo 6).item 6 = .ok (stR ys d rows none)) :
    parseLine nt ρ ("      - [".toList ++ commaSep (p.map nt.write) ++ "]".toList) = .ok (stR ys d rows (some (.seq (p.map fun x => scalarOf nt (nt.write x))))) := by
  have hc := inner_chars nt hf p
  have hcont : Content ("- [".toList ++ commaSep (p.map nt.write) ++ "]".toList) := by
    refine ⟨by simp, by simp, ?_, by rw [List.getLast?_append]; simp⟩
    intro hm
    simp only [List.mem_append] at hm
    rcases hm with (hm | hm) | hm
    · simp at hm
    · exact (hc _ hm).1 rfl
    · simp at hm
  have h0 := parseLine_plain nt ρ 6 0 _ hcont
  rw [show "      - [".toList ++ commaSep (p.map nt.write) ++ "]".toList = blanks 6 ++ (("- [".toList ++ commaSep (p.map nt.write) ++ "]".toList) ++ blanks 0) by simp; rfl, h0,
    show ("- [".toList ++ commaSep (p.map nt.write) ++ "]".toList).length = ((commaSep (p.map nt.write)).length + 2) + 2 by simp]
  have h1 : place nt (((commaSep (p.map nt.write)).length + 2) + 2) 6 ("- [".toList ++ commaSep (p.map nt.write) ++ "]".toList) (ρ.closeTo 6) =
      (do place nt (((commaSep (p.map nt.write)).length + 2) + 1) 8 ('[' :: (commaSep (p.map nt.write) ++ [']'])) (← (ρ.closeTo 6).item 6)) :=
    place_dash_more nt _ 6 _ ('[' :: (commaSep (p.map nt.write) ++ [']'])) (by simp)
  rw [h1, hρ]
  refine (place_flow nt ((commaSep (p.map nt.write)).length + 2) 8 _ (stR ys d rows none)).trans ?_
  rw [flow_full nt hf p]
  rfl

/-- A beginning of the line of one dimension. -/
theorem cut_row (hf : Faithful nt) (p : List K) (ρ : Parse K) (ys : List (Yaml K)) (d : List (String × Yaml K)) (rows : List (Yaml K))
    (hρ : (ρ.closeTo 6).item 6 = .ok (stR ys d rows none)) (j : ℕ) :
    parseLine nt ρ (("      - [".toList ++ commaSep (p.map nt.write) ++ "]".toList).take j) = .ok ρ ∨
    parseLine nt ρ (("      - [".toList ++ commaSep (p.map nt.write) ++ "]".toList).take j) = .error .exc ∨
    parseLine nt ρ (("      - [".toList ++ commaSep (p.map nt.write) ++ "]".toList).take j) = .ok (stR ys d rows none) ∨
    (("      - [".toList ++ commaSep (p.map nt.write) ++ "]".toList).take j = "      - [".toList ++ commaSep (p.map nt.write) ++ "]".toList ∧
    parseLine nt ρ (("      - [".toList ++ commaSep (p.map nt.write) ++ "]".toList).take j) = .ok (stR ys d rows (some (.seq (p.map fun x => scalarOf nt (nt.write x)))))) := by
  have hc := inner_chars nt hf p
  have hdash : ∀ n, parseLine nt ρ (blanks 6 ++ (['-'] ++ blanks n)) = .ok (stR ys d rows none) := by
    intro n
    rw [parseLine_plain nt ρ 6 n ['-'] ⟨by simp, by simp, by simp, by simp⟩]
    exact (place_dash nt 0 6 _).trans hρ
  by_cases h8 : j ≤ 8
  · rw [List.append_assoc, List.take_append_of_le_length (by simp; omega)]
    obtain h | rfl | rfl : j ≤ 6 ∨ j = 7 ∨ j = 8 := by omega
    · left
      have : "      - [".toList.take j = blanks j := by
        obtain rfl | rfl | rfl | rfl | rfl | rfl | rfl : j = 0 ∨ j = 1 ∨ j = 2 ∨ j = 3 ∨ j = 4 ∨ j = 5 ∨ j = 6 := by omega
        all_goals rfl
      rw [this]
      exact parseLine_blank nt ρ j
    · exact .inr (.inr (.inl (hdash 0)))
    · exact .inr (.inr (.inl (hdash 1)))
  · by_cases hlast : (commaSep (p.map nt.write)).length + 10 ≤ j
    · right; right; right
      rw [List.take_of_length_le (by simp; omega)]
      exact ⟨rfl, line_row nt hf p ρ ys d rows hρ⟩
    · right; left
      obtain ⟨m, rfl⟩ : ∃ m, j = 9 + m := ⟨j - 9, by omega⟩
      obtain ⟨u, n, hu, hul⟩ := split_blanks ((commaSep (p.map nt.write)).take m)
      have hmem : ∀ c ∈ u, c ∈ commaSep (p.map nt.write) := fun c hcu => List.mem_of_mem_take (by rw [hu]; simp [hcu])
      have e : ("      - [".toList ++ commaSep (p.map nt.write) ++ "]".toList).take (9 + m) = blanks 6 ++ (('-' :: ' ' :: '[' :: u) ++ blanks n) := by
        rw [List.append_assoc, show 9 = ("      - [".toList).length from rfl, List.take_length_add_append, List.take_append_of_le_length (by omega), hu]
        simp
        rfl
      have hcont : Content ('-' :: ' ' :: '[' :: u) := by
        refine ⟨by simp, by simp, ?_, ?_⟩
        · intro hm
          simp only [List.mem_cons] at hm
          rcases hm with hm | hm | hm | hm
          · cases hm
          · cases hm
          · cases hm
          · exact (hc _ (hmem _ hm)).1 rfl
        · cases hu' : u with
          | nil => simp
          | cons a u' =>
            rw [hu'] at hul
            simpa using hul
      rw [e, parseLine_plain nt ρ 6 n _ hcont]
      have h1 : place nt (u.length + 3) 6 ('-' :: ' ' :: '[' :: u) (ρ.closeTo 6) = (do place nt (u.length + 2) 8 ('[' :: u) (← (ρ.closeTo 6).item 6)) :=
        place_dash_more nt _ 6 _ ('[' :: u) (by simp)
      refine h1.trans ?_
      rw [hρ]
      refine (place_flow nt (u.length + 1) 8 u (stR ys d rows none)).trans ?_
      rw [flow_open nt u fun hm => (hc _ (hmem _ hm)).2.2.1 rfl]
      rfl

end Row

section Doc
variable {K : Type} [Field K] [LinearOrder K] [IsStrictOrderedRing K] [FloorRing K] (nt : NumberText K)

/-- The line of one dimension. -/
def rowText (p : Poly K) : List Char := "      - [".toList ++ commaSep (p.map nt.write) ++ "]".toList

theorem cut_rowText (hf : Faithful nt) (p : Poly K) (ρ : Parse K) (ys : List (Yaml K)) (d : List (String × Yaml K)) (rows : List (Yaml K))
    (hρ : (ρ.closeTo 6).item 6 = .ok (stR ys d rows none)) (j : ℕ) :
    parseLine nt ρ ((rowText nt p).take j) = .ok ρ ∨ parseLine nt ρ ((rowText nt p).take j) = .error .exc ∨ parseLine nt ρ ((rowText nt p).take j) = .ok (stR ys d rows none) ∨
    ((rowText nt p).take j = rowText nt p ∧ parseLine nt ρ ((rowText nt p).take j) = .ok (stR ys d rows (some (txtRow nt p)))) :=
  cut_row nt hf p ρ ys d rows hρ j

theorem rowLine_ok (p : Poly K) : rowLine nt p.length p = .ok (rowText nt p) := by
  have h : ((List.range p.length).mapM fun j => at? p j) = (.ok p : Res (Poly K)) := by
    rw [Sampling.mapM_range_ok p.length _ (fun i => p.getD i 0)]
    · congr 1
      apply List.ext_getElem
      · simp
      · intro n h1 h2
        simp [List.getD_eq_getElem?_getD, h2]
    · intro i hi
      simp [at?, List.getD_eq_getElem?_getD, hi]
  simp only [rowLine, h, bind, Except.bind, pure, Except.pure]
  rfl

/-- The lines of one segment. -/
def segText (s : Segment K) : List (List Char) :=
  ["  - N: ".toList ++ decimal s.N, "    D: ".toList ++ decimal s.D, "    time: ".toList ++ decimal (nsOf s) ++ "  # [ns]".toList, "    coefficients:".toList] ++
    if s.polys = [] then ["      []".toList] else s.polys.map (rowText nt)

theorem segmentLines_ok (s : Segment K) (h : Storable s) (hd : Declared s) : segmentLines nt s = .ok (segText nt s) := by
  simp only [segmentLines, getTimeNSec_ok s h, bind, Except.bind, pure, Except.pure]
  rw [mapM_ok _ (rowText nt) s.polys fun p hp => by rw [← hd p hp, rowLine_ok]]
  simp only [List.map_eq_nil_iff, segText]

/-- The lines of a document. -/
def docLines (segs : List (Segment K)) : List (List Char) := "segments:".toList :: if segs = [] then ["  []".toList] else (segs.map (segText nt)).flatten

theorem documentText_ok (segs : List (Segment K)) (hs : ∀ s ∈ segs, Storable s) (hd : ∀ s ∈ segs, Declared s) :
    documentText nt segs = .ok (['\n'].intercalate (docLines nt segs)) := by
  have : documentLines nt segs = .ok (docLines nt segs) := by
    rw [documentLines, mapM_ok _ _ segs fun s h => segmentLines_ok nt s (hs s h) (hd s h)]
    rfl
  simp only [documentText, this, bind, Except.bind, pure, Except.pure]

/-- What may be read from the last entry of a document that was cut off in it. -/
def Fine (s : Segment K) (y : Yaml K) : Prop :=
  segmentFromTree y = .ok none ∨ segmentFromTree y = .error .exc ∨ segmentFromTree y = .ok (some (back s))

/-- The segment has something in its last line: a dimension with at least one coefficient. -/
def Solid (s : Segment K) : Prop := s.polys ≠ [] ∧ s.N ≠ 0

theorem fine_none {s : Segment K} {y : Yaml K} (h : segmentFromTree y = .ok none) (P : Prop) : Fine s y ∧ (segmentFromTree y = .ok (some (back s)) → P) :=
  ⟨.inl h, fun e => by rw [h] at e; cases e⟩

theorem fine_exc {s : Segment K} {y : Yaml K} (h : segmentFromTree y = .error .exc) (P : Prop) : Fine s y ∧ (segmentFromTree y = .ok (some (back s)) → P) :=
  ⟨.inr (.inl h), fun e => by rw [h] at e; cases e⟩

theorem cuts_rows (hf : Faithful nt) (s : Segment K) (h : Storable s) (hd : Declared s) (G : List (List Char) → Res (Parse K) → Prop) (hexc : ∀ ls, G ls (.error .exc))
    (ys : List (Yaml K)) (whole : List (List Char))
    (hentry : ∀ ls τ y, τ.finish = docOf (ys ++ [y]) → Fine s y ∧ (segmentFromTree y = .ok (some (back s)) → Solid s → ls = whole) → G ls (.ok τ))
    (ps done : List (Poly K)) (hp : s.polys = done ++ ps) (pre : List (List Char)) (hpre : whole = pre ++ ps.map (rowText nt)) (ρ : Parse K)
    (hρ : (ρ.closeTo 6).item 6 = .ok (stR ys (hdr s) (done.map (txtRow nt)) none)) (hself : ps ≠ [] → ∀ ls, G ls (.ok ρ))
    (hfin : ps = [] → Ready ρ (ys ++ [txtTree nt s]) ∧ ρ.finish = docOf (ys ++ [txtTree nt s])) :
    Cuts nt G pre ρ (ps.map (rowText nt)) ∧
      ∃ τ, (ps.map (rowText nt)).foldlM (parseLine nt) ρ = .ok τ ∧ Ready τ (ys ++ [txtTree nt s]) ∧ τ.finish = docOf (ys ++ [txtTree nt s]) := by
  induction ps generalizing done ρ pre with
  | nil => exact ⟨trivial, ρ, rfl, hfin rfl⟩
  | cons p ps ih =>
    have hself := hself (by simp)
    have hline : parseLine nt ρ (rowText nt p) = .ok (stR ys (hdr s) (done.map (txtRow nt)) (some (txtRow nt p))) := line_row nt hf p ρ ys _ _ hρ
    have hp' : s.polys = (done ++ [p]) ++ ps := by rw [hp]; simp
    have hshort : ps ≠ [] → ∀ y, segmentFromTree (.map (hdr s ++ [("coefficients", .seq (done.map (txtRow nt) ++ [y]))])) = .ok none := by
      intro hps y
      refine read_short s h _ rfl _ rfl ?_
      obtain ⟨q, qs, rfl⟩ := List.exists_cons_of_ne_nil hps
      rw [Segment.D, hp]
      simp
    have hfull : ∀ ls, (ps = [] → ls = whole) → G ls (.ok (stR ys (hdr s) (done.map (txtRow nt)) (some (txtRow nt p)))) := by
      intro ls hls
      refine hentry _ _ _ (finish_stR ..) ?_
      simp only [Option.getD_some]
      by_cases hps : ps = []
      · refine ⟨.inr (.inr ?_), fun _ _ => hls hps⟩
        have := read_txtTree nt hf s h hd
        rw [txtTree, hp, hps] at this
        simpa using this
      · exact fine_none (hshort hps _) _
    obtain ⟨hc, τ, hτ, hr, hfi⟩ := ih (done ++ [p]) hp' (pre ++ [rowText nt p]) (by rw [hpre]; simp) (stR ys (hdr s) (done.map (txtRow nt)) (some (txtRow nt p)))
      (by rw [List.map_append]; rfl) (fun hps ls => hfull ls fun e => absurd e hps) (by
        intro hps
        subst hps
        have e : txtTree nt s = .map (hdr s ++ [("coefficients", .seq (done.map (txtRow nt) ++ [(some (txtRow nt p)).getD .null]))]) := by
          rw [txtTree, hp]; simp
        rw [e]
        exact ⟨ready_stR .., finish_stR ..⟩)
    have hcut : ∀ j, G (pre ++ [(rowText nt p).take j]) (parseLine nt ρ ((rowText nt p).take j)) := by
      intro j
      rcases cut_rowText nt hf p ρ ys (hdr s) (done.map (txtRow nt)) hρ j with e | e | e | ⟨e', e⟩
      · rw [e]; exact hself _
      · rw [e]; exact hexc _
      · rw [e]
        refine hentry _ _ _ (finish_stR ..) ?_
        simp only [Option.getD_none]
        by_cases hps : ps = []
        · by_cases hN : s.N = 0
          · rcases read_last_row nt hf s h hd done p (by rw [hp, hps]) with e | e
            · exact fine_none e _
            · exact ⟨.inr (.inr e), fun _ hs => absurd hN hs.2⟩
          · rcases read_last_row nt hf s h hd done p (by rw [hp, hps]) with e | e
            · exact fine_none e _
            · rw [read_last_row_none nt hf s h hd done p (by rw [hp, hps]) hN] at e
              cases e
        · exact fine_none (hshort hps _) _
      · rw [e]
        refine hfull _ fun hps => ?_
        rw [e', hpre, hps]
        rfl
    refine ⟨⟨hcut, _, hline, hc⟩, τ, ?_, hr, hfi⟩
    rw [List.map_cons, List.foldlM_cons, hline]
    exact hτ

theorem time_tail : ∀ j, (∃ n, ("  # [ns]".toList).take j = blanks n) ∨ ∃ n u, ("  # [ns]".toList).take j = blanks (n + 1) ++ '#' :: u := by
  intro j
  by_cases h : j ≤ 2
  · left
    refine ⟨j, ?_⟩
    obtain rfl | rfl | rfl : j = 0 ∨ j = 1 ∨ j = 2 := by omega
    all_goals rfl
  · right
    obtain ⟨m, rfl⟩ : ∃ m, j = 3 + m := ⟨j - 3, by omega⟩
    refine ⟨1, (" [ns]".toList).take m, ?_⟩
    rw [show "  # [ns]".toList = "  #".toList ++ " [ns]".toList from rfl, show 3 = ("  #".toList).length from rfl, List.take_length_add_append]
    rfl

theorem no_tail : ∀ j, (∃ n, ([] : List Char).take j = blanks n) ∨ ∃ n u, ([] : List Char).take j = blanks (n + 1) ++ '#' :: u :=
  fun j => .inl ⟨0, by simp⟩

theorem cuts_segment (hf : Faithful nt) (s : Segment K) (h : Storable s) (hd : Declared s) (G : List (List Char) → Res (Parse K) → Prop) (hexc : ∀ ls, G ls (.error .exc))
    (ys : List (Yaml K)) (pre : List (List Char))
    (hentry : ∀ ls τ y, τ.finish = docOf (ys ++ [y]) → Fine s y ∧ (segmentFromTree y = .ok (some (back s)) → Solid s → ls = pre ++ segText nt s) → G ls (.ok τ))
    (σ : Parse K) (hσ : Ready σ ys) (hself : ∀ m, G (pre ++ [blanks m]) (.ok σ)) :
    Cuts nt G pre σ (segText nt s) ∧
      ∃ τ, (segText nt s).foldlM (parseLine nt) σ = .ok τ ∧ Ready τ (ys ++ [txtTree nt s]) ∧ τ.finish = docOf (ys ++ [txtTree nt s]) := by
  have hmiss : ∀ ls d k v, (d ++ [(k, v.getD .null)] : List (String × Yaml K)).lookup "coefficients" = none → G ls (.ok (stM ys d k v)) :=
    fun ls d k v hl => hentry _ _ _ (finish_stM ..) (fine_none (read_missing _ hl) _)
  -- the four lines of the header
  have l1 := line_first nt (decimal_ne s.N) (decimal_digits s.N) σ ys hσ
  rw [scalarOf_decimal] at l1
  have l2 := line_value nt keyD (decimal_ne s.D) (decimal_digits s.D) ys [] "N" (some (.int s.N)) 0
  rw [scalarOf_decimal, show blanks 4 ++ (['D'] ++ ':' :: ' ' :: decimal s.D ++ blanks 0) = "    D: ".toList ++ decimal s.D by simp; rfl] at l2
  have l3 := line_value_comment nt keyTime (decimal_ne (nsOf s)) (decimal_digits (nsOf s)) ys [("N", .int s.N)] "D" (some (.int s.D)) 1 " [ns]".toList
  rw [scalarOf_decimal, show blanks 4 ++ ("time".toList ++ ':' :: ' ' :: decimal (nsOf s) ++ (blanks (1 + 1) ++ '#' :: " [ns]".toList)) =
    "    time: ".toList ++ decimal (nsOf s) ++ "  # [ns]".toList by simp; rfl] at l3
  have l4 := line_key nt keyCoefficients ys [("N", .int s.N), ("D", .int s.D)] "time" (some (.int (nsOf s))) 0
  rw [show blanks 4 ++ ("coefficients".toList ++ [':'] ++ blanks 0) = "    coefficients:".toList by rfl] at l4
  have c2 := cut_value nt keyD (decimal_ne s.D) (decimal_digits s.D) [] no_tail ys [] "N" (some (.int s.N))
  rw [show blanks 4 ++ (['D'] ++ ':' :: ' ' :: decimal s.D ++ []) = "    D: ".toList ++ decimal s.D by simp; rfl] at c2
  have c3 := cut_value nt keyTime (decimal_ne (nsOf s)) (decimal_digits (nsOf s)) "  # [ns]".toList time_tail ys [("N", .int s.N)] "D" (some (.int s.D))
  rw [show blanks 4 ++ ("time".toList ++ ':' :: ' ' :: decimal (nsOf s) ++ "  # [ns]".toList) = "    time: ".toList ++ decimal (nsOf s) ++ "  # [ns]".toList by simp; rfl] at c3
  have c4 := cut_key nt keyCoefficients ys [("N", .int s.N), ("D", .int s.D)] "time" (some (.int (nsOf s)))
  rw [show blanks 4 ++ ("coefficients".toList ++ [':']) = "    coefficients:".toList by rfl] at c4
  have e4 : stM ys ([("N", .int s.N), ("D", .int s.D)] ++ [("time", (some (Yaml.int (nsOf s))).getD .null)]) (String.ofList "coefficients".toList) none =
      stM ys (hdr s) "coefficients" none := rfl
  rw [e4] at l4 c4
  have g4 : ∀ ls, G ls (.ok (stM ys (hdr s) "coefficients" none)) := by
    intro ls
    refine hentry _ _ _ (finish_stM ..) ?_
    simp only [Option.getD_none]
    by_cases hD : s.polys = []
    · exact ⟨.inr (.inr (read_no_dimensions s h hD)), fun _ hs => absurd hD hs.1⟩
    · refine fine_none (read_short s h _ rfl 0 rfl ?_) _
      rw [Segment.D]
      intro e
      exact hD (List.length_eq_zero_iff.mp e.symm)
  have c1 : ∀ j, G (pre ++ [("  - N: ".toList ++ decimal s.N).take j]) (parseLine nt σ (("  - N: ".toList ++ decimal s.N).take j)) := by
    intro j
    rcases cut_first nt (decimal_ne s.N) (decimal_digits s.N) σ ys hσ j with ⟨⟨m, e'⟩, e⟩ | ⟨v, hv, e⟩ | ⟨v, e⟩
    · rw [e, e']; exact hself m
    · rw [e]
      refine hentry _ _ _ (finish_stB ..) ?_
      rcases read_scalar _ hv with e | e
      · exact fine_none e _
      · exact fine_exc e _
    · rw [e]; exact hmiss _ _ _ _ rfl
  have c2' : ∀ ls j, G ls (parseLine nt (stM ys [] "N" (some (.int s.N))) (("    D: ".toList ++ decimal s.D).take j)) := by
    intro ls j
    rcases c2 j with e | e | ⟨w, e⟩
    · rw [e]; exact hmiss _ _ _ _ rfl
    · rw [e]; exact hexc _
    · rw [e]; exact hmiss _ _ _ _ rfl
  have c3' : ∀ ls j, G ls (parseLine nt (stM ys [("N", .int s.N)] "D" (some (.int s.D))) (("    time: ".toList ++ decimal (nsOf s) ++ "  # [ns]".toList).take j)) := by
    intro ls j
    rcases c3 j with e | e | ⟨w, e⟩
    · rw [e]; exact hmiss _ _ _ _ rfl
    · rw [e]; exact hexc _
    · rw [e]; exact hmiss _ _ _ _ rfl
  have c4' : ∀ ls j, G ls (parseLine nt (stM ys [("N", .int s.N), ("D", .int s.D)] "time" (some (.int (nsOf s)))) (("    coefficients:".toList).take j)) := by
    intro ls j
    rcases c4 j with e | e | e
    · rw [e]; exact hmiss _ _ _ _ rfl
    · rw [e]; exact hexc _
    · rw [e]; exact g4 _
  have head : Cuts nt G pre σ ["  - N: ".toList ++ decimal s.N, "    D: ".toList ++ decimal s.D, "    time: ".toList ++ decimal (nsOf s) ++ "  # [ns]".toList,
      "    coefficients:".toList] := ⟨c1, _, l1, fun j => c2' _ j, _, l2, fun j => c3' _ j, _, l3, fun j => c4' _ j, _, l4, trivial⟩
  have fhead : ["  - N: ".toList ++ decimal s.N, "    D: ".toList ++ decimal s.D, "    time: ".toList ++ decimal (nsOf s) ++ "  # [ns]".toList,
      "    coefficients:".toList].foldlM (parseLine nt) σ = .ok (stM ys (hdr s) "coefficients" none) := by
    simp only [List.foldlM_cons, List.foldlM_nil]
    rw [l1]
    simp only [ok_bind]
    rw [l2]
    simp only [ok_bind]
    have l3' : parseLine nt (stM ys ([] ++ [("N", (some (Yaml.int (s.N : ℤ))).getD .null)]) (String.ofList ['D']) (some (.int s.D)))
      ("    time: ".toList ++ decimal (nsOf s) ++ "  # [ns]".toList) = _ := l3
    rw [l3']
    simp only [ok_bind]
    have l4' : parseLine nt (stM ys ([("N", .int (s.N : ℤ))] ++ [("D", (some (Yaml.int (s.D : ℤ))).getD .null)]) (String.ofList "time".toList) (some (.int (nsOf s))))
      ("    coefficients:".toList) = _ := l4
    rw [l4']
    rfl
  -- the rows
  by_cases hD : s.polys = []
  · have hline : parseLine nt (stM ys (hdr s) "coefficients" none) "      []".toList = .ok (stM ys (hdr s) "coefficients" (some (.seq []))) := by
      have h0 := parseLine_plain nt (stM ys (hdr s) "coefficients" none) 6 0 "[]".toList ⟨by simp, by simp, by simp, by simp⟩
      refine h0.trans ((place_flow nt 1 6 [']'] _).trans ?_)
      have := flow_full' nt
      rw [this]
      rfl
    have htree : txtTree nt s = .map (hdr s ++ [("coefficients", (some (Yaml.seq [])).getD .null)]) := by rw [txtTree, hD]; rfl
    have gfull : ∀ ls, G ls (.ok (stM ys (hdr s) "coefficients" (some (.seq [])))) := by
      intro ls
      refine hentry _ _ _ (finish_stM ..) ⟨.inr (.inr ?_), fun _ hs => absurd hD hs.1⟩
      rw [← htree]
      exact read_txtTree nt hf s h hd
    have e : segText nt s = ["  - N: ".toList ++ decimal s.N, "    D: ".toList ++ decimal s.D, "    time: ".toList ++ decimal (nsOf s) ++ "  # [ns]".toList,
      "    coefficients:".toList] ++ ["      []".toList] := by rw [segText, if_pos hD]
    rw [e]
    refine ⟨cuts_append nt G _ _ _ σ _ head fhead ⟨fun j => ?_, _, hline, trivial⟩, stM ys (hdr s) "coefficients" (some (.seq [])), ?_⟩
    · by_cases h6 : j ≤ 6
      · have : "      []".toList.take j = blanks j := by
          obtain rfl | rfl | rfl | rfl | rfl | rfl | rfl : j = 0 ∨ j = 1 ∨ j = 2 ∨ j = 3 ∨ j = 4 ∨ j = 5 ∨ j = 6 := by omega
          all_goals rfl
        rw [this, parseLine_blank]
        exact g4 _
      · by_cases h7 : j = 7
        · subst h7
          have h0 := parseLine_plain nt (stM ys (hdr s) "coefficients" none) 6 0 "[".toList ⟨by simp, by simp, by simp, by simp⟩
          have : parseLine nt (stM ys (hdr s) "coefficients" none) ("      []".toList.take 7) = .error .exc := by
            refine h0.trans ((place_flow nt 0 6 [] _).trans ?_)
            rw [flow_open nt [] (by simp)]
            rfl
          rw [this]
          exact hexc _
        · rw [List.take_of_length_le (by simp; omega), hline]
          exact gfull _
    · rw [List.foldlM_append, fhead]
      refine ⟨?_, ?_⟩
      · simp only [ok_bind, List.foldlM_cons, List.foldlM_nil, hline]
        rfl
      · rw [htree]
        exact ⟨ready_stM .., finish_stM ..⟩
  · have e : segText nt s = ["  - N: ".toList ++ decimal s.N, "    D: ".toList ++ decimal s.D, "    time: ".toList ++ decimal (nsOf s) ++ "  # [ns]".toList,
      "    coefficients:".toList] ++ s.polys.map (rowText nt) := by rw [segText, if_neg hD]
    obtain ⟨hc, τ, hτ, hr, hfi⟩ := cuts_rows nt hf s h hd G hexc ys (pre ++ segText nt s) hentry s.polys [] (by simp)
      (pre ++ ["  - N: ".toList ++ decimal s.N, "    D: ".toList ++ decimal s.D, "    time: ".toList ++ decimal (nsOf s) ++ "  # [ns]".toList, "    coefficients:".toList])
      (by rw [e]; exact (List.append_assoc _ _ _).symm) (stM ys (hdr s) "coefficients" none) rfl (fun _ => g4) (fun e => absurd e hD)
    rw [e]
    refine ⟨cuts_append nt G _ _ _ σ _ head fhead hc, τ, ?_, hr, hfi⟩
    rw [List.foldlM_append, fhead]
    exact hτ

theorem cuts_segments (hf : Faithful nt) (G : List (List Char) → Res (Parse K) → Prop) (hexc : ∀ ls, G ls (.error .exc)) (first : List Char) (segs pre : List (Segment K))
    (hs : ∀ s ∈ segs, Storable s) (hd : ∀ s ∈ segs, Declared s)
    (hentry : ∀ (p : List (Segment K)) s r, pre ++ segs = p ++ s :: r → ∀ ls τ y, τ.finish = docOf (p.map (txtTree nt) ++ [y]) →
      Fine s y ∧ (segmentFromTree y = .ok (some (back s)) → Solid s → ls = (first :: (p.map (segText nt)).flatten) ++ segText nt s) → G ls (.ok τ))
    (hself' : ∀ (p r : List (Segment K)), pre ++ segs = p ++ r → p ≠ [] → ∀ τ m, τ.finish = docOf (p.map (txtTree nt)) → G ((first :: (p.map (segText nt)).flatten) ++ [blanks m]) (.ok τ))
    (σ : Parse K) (hσ : Ready σ (pre.map (txtTree nt))) (hself : ∀ m, G ((first :: (pre.map (segText nt)).flatten) ++ [blanks m]) (.ok σ)) :
    Cuts nt G (first :: (pre.map (segText nt)).flatten) σ (segs.map (segText nt)).flatten ∧
      ∃ τ, (segs.map (segText nt)).flatten.foldlM (parseLine nt) σ = .ok τ ∧ (segs ≠ [] → τ.finish = docOf ((pre ++ segs).map (txtTree nt))) := by
  induction segs generalizing pre σ with
  | nil => exact ⟨trivial, σ, rfl, fun h => absurd rfl h⟩
  | cons s segs ih =>
    obtain ⟨hc, τ, hτ, hr, hfi⟩ := cuts_segment nt hf s (hs s (by simp)) (hd s (by simp)) G hexc (pre.map (txtTree nt))
      (first :: (pre.map (segText nt)).flatten) (hentry pre s segs rfl) σ hσ hself
    have e : pre.map (txtTree nt) ++ [txtTree nt s] = (pre ++ [s]).map (txtTree nt) := by simp
    rw [e] at hr hfi
    have ea : pre ++ s :: segs = (pre ++ [s]) ++ segs := by simp
    obtain ⟨hc', τ', hτ', hfi'⟩ := ih (pre ++ [s]) (fun t ht => hs t (by simp [ht])) (fun t ht => hd t (by simp [ht])) (by rw [← ea]; exact hentry) (by rw [← ea]; exact hself') τ hr
      (fun m => hself' (pre ++ [s]) segs ea (by simp) τ m hfi)
    refine ⟨?_, τ', ?_, fun _ => ?_⟩
    · rw [List.map_cons, List.flatten_cons]
      exact cuts_append nt G _ _ _ σ τ hc hτ (by simpa using hc')
    · rw [List.map_cons, List.flatten_cons, List.foldlM_append, hτ]
      exact hτ'
    · by_cases hne : segs = []
      · subst hne
        have : τ' = τ := by
          have h := hτ'
          simp only [List.map_nil, List.flatten_nil, List.foldlM_nil] at h
          exact (Except.ok.inj h).symm
        rw [this]
        exact hfi
      · rw [ea]; exact hfi' hne

end Doc

end Verif.IO
