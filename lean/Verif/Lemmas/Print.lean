import Verif.Model.Print
import Verif.Spec.Print
import Mathlib.Data.List.Basic
import Mathlib.Tactic.IntervalCases

/-!
# Lemmas: the reader undoes the printer
-/

namespace Verif.Lemmas

open Verif Verif.Spec Verif.Print

variable {K : Type} {num : ℕ → K → List Char} {read : List Char → Option K} {shown : ℕ → K → K}

theorem prefix_text (a b : List Char) : a.isPrefixOf? (a ++ b) = some b := by
  induction a with
  | nil => rfl
  | cons x a ih => simp [List.isPrefixOf?, ih]

theorem some_mapM {α β : Type} (f : α → Option β) (g : α → β) (l : List α) (h : ∀ x ∈ l, f x = some (g x)) : l.mapM f = some (l.map g) := by
  induction l with
  | nil => rfl
  | cons x l ih =>
    rw [List.mapM_cons, h x List.mem_cons_self, ih fun y hy => h y (List.mem_cons_of_mem _ hy)]
    rfl

/-- Pieces that each end with a separator. -/
theorem pieces_split {α : Type} [BEq α] [LawfulBEq α] (a : α) (ls : List (List α)) (h : ∀ l ∈ ls, a ∉ l) :
    (ls.flatMap (· ++ [a])).splitOn a = ls ++ [[]] := by
  induction ls with
  | nil => rfl
  | cons l ls ih =>
    rw [List.flatMap_cons, List.append_assoc, List.singleton_append, List.splitOn_append_cons_self_of_not_mem (h l List.mem_cons_self),
      ih fun x hx => h x (List.mem_cons_of_mem _ hx), List.cons_append]

theorem linesOf_pieces (ls : List (List Char)) (h : ∀ l ∈ ls, '\n' ∉ l) : linesOf (ls.flatMap (· ++ ['\n'])) = ls := by
  unfold linesOf
  rw [pieces_split _ _ h, List.dropLast_concat]

theorem joined_pieces (l : List (List Char)) (hl : l ≠ []) : ['\n'].intercalate l ++ ['\n'] = l.flatMap (· ++ ['\n']) := by
  induction l with
  | nil => exact absurd rfl hl
  | cons a l ih =>
    cases l with
    | nil => simp
    | cons b l =>
      rw [List.intercalate_cons_cons, List.append_assoc, ih (by simp), List.flatMap_cons, List.flatMap_cons, List.flatMap_cons]

section
variable (hN : Numerals num read shown)
include hN

theorem numeral_not {n : ℕ} {x : K} {c : Char} (hc : c ∈ num n x) (d : Char) (hd : ¬ d.isDigit = true ∧ d ≠ '-' ∧ d ≠ '+' ∧ d ≠ '.' ∧ d ≠ 'e') : c ≠ d := by
  rintro rfl
  rcases hN.plain n x c hc with h | h | h | h | h
  · exact hd.1 h
  · exact hd.2.1 h
  · exact hd.2.2.1 h
  · exact hd.2.2.2.1 h
  · exact hd.2.2.2.2 h

theorem filter_numeral (n : ℕ) (x : K) : ((num n x).filter fun c => c ≠ '[' ∧ c ≠ ']' ∧ c ≠ ' ') = num n x := by
  refine List.filter_eq_self.mpr fun c hc => ?_
  have h1 := numeral_not hN hc '[' (by decide)
  have h2 := numeral_not hN hc ']' (by decide)
  have h3 := numeral_not hN hc ' ' (by decide)
  simp [h1, h2, h3]

omit hN in
theorem aligned_eq (ws : List (List Char)) : ∃ w : ℕ, aligned ws = ws.map fun s => List.replicate (w - s.length) ' ' ++ s := ⟨_, rfl⟩

omit hN in
theorem filter_replicate_blank (k : ℕ) (p : Char → Bool) (hp : p ' ' = false) : (List.replicate k ' ').filter p = [] := by
  rw [List.filter_eq_nil_iff]
  intro c hc
  rw [List.eq_of_mem_replicate hc, hp]
  simp

theorem read_row (c : List K) (hc : c ≠ []) : readNumbers read (formatRow num c) = some (c.map (shown 4)) := by
  unfold readNumbers formatRow
  rw [if_neg hc]
  obtain ⟨w, hw⟩ := aligned_eq (c.map (num 4))
  rw [hw]
  have h1 : ∀ l : List K, ((", ".toList.intercalate ((l.map (num 4)).map fun s => List.replicate (w - s.length) ' ' ++ s)).filter fun c => c ≠ '[' ∧ c ≠ ']' ∧ c ≠ ' ') =
      [','].intercalate (l.map (num 4)) := by
    intro l
    induction l with
    | nil => rfl
    | cons a l ih =>
      cases l with
      | nil =>
        simp only [List.map_cons, List.map_nil, List.intercalate_singleton]
        rw [List.filter_append, filter_replicate_blank _ _ (by decide), List.nil_append, filter_numeral hN]
      | cons b l =>
        simp only [List.map_cons] at ih ⊢
        rw [List.intercalate_cons_cons, List.intercalate_cons_cons, List.filter_append, List.filter_append, List.filter_append,
          filter_replicate_blank _ _ (by decide), List.nil_append, filter_numeral hN, ih]
        rfl
  rw [List.filter_cons_of_neg (by decide), List.filter_append, h1, show (List.filter (fun c => decide (c ≠ '[' ∧ c ≠ ']' ∧ c ≠ ' ')) [']']) = [] by decide,
    List.append_nil, List.splitOn_intercalate ',' (fun l hl hm => by
      obtain ⟨x, _, rfl⟩ := List.mem_map.mp hl
      exact numeral_not hN hm ',' (by decide) rfl) (by simpa using hc)]
  rw [List.mapM_map]
  exact some_mapM _ _ _ fun x _ => hN.reads 4 x

end

/-! ## Vertices -/

theorem name_clean (k : Int) : ∀ c ∈ (MotionDefines.positionDerivativeToString k).toList, c ≠ ' ' ∧ c ≠ '\n' ∧ c ≠ ':' := by
  unfold MotionDefines.positionDerivativeToString
  split
  · rename_i h
    obtain ⟨h0, h4⟩ := h
    interval_cases k <;> decide
  · decide

theorem name_order (k : Int) (h0 : 0 ≤ k) (h4 : k ≤ 4) : namedOrder (MotionDefines.positionDerivativeToString k).toList = some k.toNat := by
  interval_cases k <;> decide

theorem name_invalid (k : Int) (h : ¬ (0 ≤ k ∧ k ≤ 4)) : namedOrder (MotionDefines.positionDerivativeToString k).toList = none := by
  unfold MotionDefines.positionDerivativeToString
  rw [if_neg h]
  decide

theorem takeWhile_clean {p : Char → Bool} (a b : List Char) (x : Char) (ha : ∀ c ∈ a, p c = true) (hx : p x = false) :
    (a ++ x :: b).takeWhile p = a ∧ (a ++ x :: b).dropWhile p = x :: b := by
  constructor
  · rw [List.takeWhile_append_of_pos ha, List.takeWhile_cons_of_neg (by simp [hx]), List.append_nil]
  · rw [List.dropWhile_append_of_pos ha, List.dropWhile_cons_of_neg (by simp [hx])]

section
variable (hN : Numerals num read shown)
include hN

theorem read_constraint (x : Int × List K) (h0 : 0 ≤ x.1) (h4 : x.1 ≤ 4) (hx : x.2 ≠ []) :
    readConstraint read (constraintLine num x) = some (x.1.toNat, x.2.map (shown 4)) := by
  unfold readConstraint constraintLine
  obtain ⟨e1, e2⟩ := takeWhile_clean (p := fun c => decide (c ≠ ' ')) (MotionDefines.positionDerivativeToString x.1).toList
    (" value: ".toList ++ formatRow num x.2) ' ' (fun c hc => by simpa using (name_clean x.1 c hc).1) (by decide)
  rw [List.append_assoc, prefix_text]
  change (do
    let order ← namedOrder ((( MotionDefines.positionDerivativeToString x.1).toList ++ ' ' :: (" value: ".toList ++ formatRow num x.2)).takeWhile (fun c => decide (c ≠ ' ')))
    let values ← "  value: ".toList.isPrefixOf? (((MotionDefines.positionDerivativeToString x.1).toList ++ ' ' :: (" value: ".toList ++ formatRow num x.2)).dropWhile (fun c => decide (c ≠ ' ')))
    let numbers ← readNumbers read values
    return (order, numbers)) = _
  rw [e1, e2, name_order _ h0 h4]
  change (do
    let values ← "  value: ".toList.isPrefixOf? ("  value: ".toList ++ formatRow num x.2)
    let numbers ← readNumbers read values
    return (x.1.toNat, numbers)) = _
  rw [prefix_text]
  change (do
    let numbers ← readNumbers read (formatRow num x.2)
    return (x.1.toNat, numbers)) = _
  rw [read_row hN _ hx]
  rfl

theorem aligned_clean (n : ℕ) (c : List K) : ∀ l ∈ aligned (c.map (num n)), '\n' ∉ l := by
  obtain ⟨w, hw⟩ := aligned_eq (c.map (num n))
  rw [hw]
  intro l hl hm
  obtain ⟨s, hs, rfl⟩ := List.mem_map.mp hl
  obtain ⟨x, _, rfl⟩ := List.mem_map.mp hs
  rcases List.mem_append.mp hm with h | h
  · exact absurd (List.eq_of_mem_replicate h) (by decide)
  · exact numeral_not hN h '\n' (by decide) rfl

omit hN in
theorem intercalate_clean (a : Char) (sep : List Char) (hs : a ∉ sep) (l : List (List Char)) (h : ∀ x ∈ l, a ∉ x) : a ∉ sep.intercalate l := by
  induction l with
  | nil => simp
  | cons x l ih =>
    cases l with
    | nil => simpa using h x (by simp)
    | cons y l =>
      rw [List.intercalate_cons_cons]
      intro hm
      rcases List.mem_append.mp hm with hm | hm
      · rcases List.mem_append.mp hm with hm | hm
        · exact h x (by simp) hm
        · exact hs hm
      · exact ih (fun z hz => h z (List.mem_cons_of_mem _ hz)) hm

theorem constraint_clean (x : Int × List K) : '\n' ∉ constraintLine num x := by
  unfold constraintLine formatRow
  intro hm
  rcases List.mem_append.mp hm with hm | hm
  · rcases List.mem_append.mp hm with hm | hm
    · revert hm; decide
    · exact (name_clean x.1 _ hm).2.1 rfl
  · rcases List.mem_append.mp hm with hm | hm
    · revert hm; decide
    · split at hm
      · cases hm
      · rcases List.mem_cons.mp hm with hm | hm
        · revert hm; decide
        · rcases List.mem_append.mp hm with hm | hm
          · exact intercalate_clean '\n' _ (by decide) _ (aligned_clean hN 4 x.2) hm
          · revert hm; decide

omit hN in
/-- The lines of a vertex. -/
def vertexLines (num : ℕ → K → List Char) (v : Vertex K) : List (List Char) := "constraints: ".toList :: v.constraints.map (constraintLine num)

omit hN in
theorem printVertex_lines (v : Vertex K) : printVertex num v = (vertexLines num v).flatMap (· ++ ['\n']) := by
  unfold printVertex vertexLines
  rw [List.flatMap_cons, List.flatMap_map]

theorem vertexLines_clean (v : Vertex K) : ∀ l ∈ vertexLines num v, '\n' ∉ l ∧ l ≠ [] := by
  intro l hl
  rcases List.mem_cons.mp hl with rfl | hl
  · decide
  · obtain ⟨x, _, rfl⟩ := List.mem_map.mp hl
    exact ⟨constraint_clean hN x, List.append_ne_nil_of_left_ne_nil (List.append_ne_nil_of_left_ne_nil (by decide) _) _⟩

theorem read_vertexLines (v : Vertex K) (hv : ∀ x ∈ v.constraints, 0 ≤ x.1 ∧ x.1 ≤ 4 ∧ x.2 ≠ []) :
    readVertexLines read (vertexLines num v) = some (v.constraints.map fun x => (x.1.toNat, x.2.map (shown 4))) := by
  unfold vertexLines
  rw [readVertexLines, if_pos rfl, List.mapM_map]
  exact some_mapM _ _ _ fun x hx => read_constraint hN x (hv x hx).1 (hv x hx).2.1 (hv x hx).2.2

end

/-- Blocks of lines, each followed by an empty line. -/
theorem blocks_lines (bs : List (List (List Char))) (h : ∀ b ∈ bs, ∀ l ∈ b, '\n' ∉ l ∧ l ≠ []) :
    ((linesOf (bs.flatMap fun b => b.flatMap (· ++ ['\n']) ++ ['\n'])).splitOn []).dropLast = bs := by
  have h1 : (bs.flatMap fun b => b.flatMap (· ++ ['\n']) ++ ['\n']) = (bs.flatMap (· ++ [[]])).flatMap (· ++ ['\n']) := by
    induction bs with
    | nil => rfl
    | cons b bs ih =>
      rw [List.flatMap_cons, ih fun x hx => h x (List.mem_cons_of_mem _ hx), List.flatMap_cons, List.flatMap_append, List.flatMap_append]
      rfl
  rw [h1, linesOf_pieces _ (fun l hl => by
    obtain ⟨b, hb, hl⟩ := List.mem_flatMap.mp hl
    rcases List.mem_append.mp hl with hl | hl
    · exact (h b hb l hl).1
    · rw [List.mem_singleton.mp hl]; simp), pieces_split _ _ (fun b hb hm => (h b hb _ hm).2 rfl), List.dropLast_concat]

/-! ## Segments -/

/-- The heading of a dimension. -/
def headingLine (i : ℕ) : List Char := "dim ".toList ++ Nat.toDigits 10 i ++ ": ".toList

/-- The lines of a segment. -/
def segmentLines (num : ℕ → K → List Char) (prec : ℕ) (t : K) (k : Int) (rows : List (List K)) : List (List Char) :=
  ("t: ".toList ++ num prec t) :: (" coefficients for ".toList ++ (MotionDefines.positionDerivativeToString k).toList ++ ": ".toList) ::
    rows.zipIdx.flatMap fun x => headingLine x.2 :: aligned (x.1.map (num prec))

theorem dimensionText_lines (prec : ℕ) (x : List K × ℕ) (hx : x.1 ≠ []) :
    dimensionText num prec x = (headingLine x.2 :: aligned (x.1.map (num prec))).flatMap (· ++ ['\n']) := by
  unfold dimensionText
  rw [joined_pieces _ (by simpa [aligned] using hx), List.flatMap_cons]
  rfl

theorem flatMap_congr_mem {α β : Type} {f g : α → List β} {l : List α} (h : ∀ x ∈ l, f x = g x) : l.flatMap f = l.flatMap g := by
  induction l with
  | nil => rfl
  | cons x l ih => rw [List.flatMap_cons, List.flatMap_cons, h x List.mem_cons_self, ih fun y hy => h y (List.mem_cons_of_mem _ hy)]

theorem digits_clean (i : ℕ) : ∀ c ∈ headingLine i, c ≠ '\n' := by
  intro c hc
  unfold headingLine at hc
  rcases List.mem_append.mp hc with hc | hc
  · rcases List.mem_append.mp hc with hc | hc
    · rintro rfl
      revert hc; decide
    · have := Nat.isDigit_of_mem_toDigits (by norm_num) (by norm_num) hc
      rintro rfl
      revert this; decide
  · rintro rfl
    revert hc; decide

section
variable (hN : Numerals num read shown)
include hN

theorem aligned_not_heading (prec : ℕ) (r : List K) : ∀ l ∈ aligned (r.map (num prec)), isHeading l = false ∧ l ≠ [] := by
  obtain ⟨w, hw⟩ := aligned_eq (r.map (num prec))
  rw [hw]
  intro l hl
  obtain ⟨s, hs, rfl⟩ := List.mem_map.mp hl
  obtain ⟨x, _, rfl⟩ := List.mem_map.mp hs
  refine ⟨?_, by simp [hN.nonempty prec x]⟩
  cases w - (num prec x).length with
  | zero =>
    obtain ⟨c, t, ht⟩ := List.exists_cons_of_ne_nil (hN.nonempty prec x)
    have : c ≠ 'd' := numeral_not hN (n := prec) (x := x) (by rw [ht]; simp) 'd' (by decide)
    simp only [List.replicate_zero, List.nil_append, ht, isHeading]
    simpa [List.isPrefixOf] using fun h => absurd h.symm this
  | succ n => rfl

theorem read_aligned (prec : ℕ) (r : List K) : ((aligned (r.map (num prec))).mapM fun l => read (l.filter (· ≠ ' '))) = some (r.map (shown prec)) := by
  obtain ⟨w, hw⟩ := aligned_eq (r.map (num prec))
  rw [hw, List.mapM_map, List.mapM_map]
  refine some_mapM _ _ _ fun x _ => ?_
  change read (((List.replicate _ ' ') ++ num prec x).filter (· ≠ ' ')) = _
  rw [List.filter_append, filter_replicate_blank _ _ (by decide), List.nil_append, List.filter_eq_self.mpr fun c hc => by
    simpa using numeral_not hN hc ' ' (by decide), hN.reads]

theorem segmentLines_clean (prec : ℕ) (t : K) (k : Int) (rows : List (List K)) : ∀ l ∈ segmentLines num prec t k rows, '\n' ∉ l ∧ l ≠ [] := by
  intro l hl
  rcases List.mem_cons.mp hl with rfl | hl
  · refine ⟨fun hm => ?_, List.append_ne_nil_of_left_ne_nil (by decide) _⟩
    rcases List.mem_append.mp hm with hm | hm
    · revert hm; decide
    · exact numeral_not hN hm '\n' (by decide) rfl
  · rcases List.mem_cons.mp hl with rfl | hl
    · refine ⟨fun hm => ?_, List.append_ne_nil_of_left_ne_nil (List.append_ne_nil_of_left_ne_nil (by decide) _) _⟩
      rcases List.mem_append.mp hm with hm | hm
      · rcases List.mem_append.mp hm with hm | hm
        · revert hm; decide
        · exact (name_clean k _ hm).2.1 rfl
      · revert hm; decide
    · obtain ⟨x, _, hl⟩ := List.mem_flatMap.mp hl
      rcases List.mem_cons.mp hl with rfl | hl
      · exact ⟨fun hm => digits_clean _ _ hm rfl, List.append_ne_nil_of_left_ne_nil (List.append_ne_nil_of_left_ne_nil (by decide) _) _⟩
      · exact ⟨aligned_clean hN prec x.1 l hl, (aligned_not_heading hN prec x.1 l hl).2⟩

omit hN in
theorem heading_is (i : ℕ) : isHeading (headingLine i) = true := by
  unfold isHeading headingLine
  rw [List.append_assoc, List.isPrefixOf_iff_prefix]
  exact List.prefix_append _ _

theorem split_rows (prec : ℕ) (xs : List (List K × ℕ)) :
    ((xs.flatMap fun x => headingLine x.2 :: aligned (x.1.map (num prec))).splitOnP isHeading) = [] :: xs.map (fun x => aligned (x.1.map (num prec))) ∧
    ((xs.flatMap fun x => headingLine x.2 :: aligned (x.1.map (num prec))).filter isHeading) = xs.map (fun x => headingLine x.2) := by
  have gen : ∀ (pre : List (List Char)) (_ : ∀ l ∈ pre, isHeading l = false) (xs : List (List K × ℕ)),
      ((pre ++ xs.flatMap fun x => headingLine x.2 :: aligned (x.1.map (num prec))).splitOnP isHeading) = pre :: xs.map (fun x => aligned (x.1.map (num prec))) := by
    intro pre hpre xs
    induction xs generalizing pre with
    | nil => simpa using List.splitOnP_eq_singleton hpre
    | cons x xs ih =>
      rw [List.flatMap_cons, List.cons_append, List.splitOnP_append_cons_of_forall_mem hpre _ (heading_is x.2),
        ih _ fun l hl => (aligned_not_heading hN prec x.1 l hl).1, List.map_cons]
  refine ⟨gen [] (by simp) xs, ?_⟩
  induction xs with
  | nil => rfl
  | cons x xs ih =>
    rw [List.flatMap_cons, List.filter_append, ih, List.filter_cons_of_pos (heading_is x.2), List.filter_eq_nil_iff.mpr (fun l hl => by
      simp [(aligned_not_heading hN prec x.1 l hl).1]), List.map_cons]
    rfl

theorem read_segmentLines (prec : ℕ) (t : K) (k : Int) (rows : List (List K)) :
    readSegmentLines read (segmentLines num prec t k rows) =
      some (shown prec t, namedOrder (MotionDefines.positionDerivativeToString k).toList, rows.map fun r => r.map (shown prec)) := by
  unfold segmentLines
  obtain ⟨e1, e2⟩ := split_rows hN prec rows.zipIdx
  have e3 : (rows.zipIdx.map fun x => aligned (x.1.map (num prec))) = rows.map fun r => aligned (r.map (num prec)) := by
    conv_rhs => rw [← List.zipIdx_map_fst 0 rows, List.map_map]
    rfl
  have e4 : (rows.zipIdx.map fun x => headingLine x.2) = (List.range rows.length).map headingLine := by
    rw [List.range_eq_range', ← List.zipIdx_map_snd 0 rows, List.map_map]
    rfl
  have e5 : ((rows.map fun r => aligned (r.map (num prec))).mapM fun g => g.mapM fun l => read (l.filter (· ≠ ' '))) = some (rows.map fun r => r.map (shown prec)) := by
    rw [List.mapM_map]
    exact some_mapM _ _ _ fun r _ => read_aligned hN prec r
  have e6 := (takeWhile_clean (p := fun c => decide (c ≠ ':')) (MotionDefines.positionDerivativeToString k).toList [' '] ':'
    (fun c hc => by simpa using (name_clean k c hc).2.2) (by decide)).1
  rw [readSegmentLines, List.append_assoc, prefix_text, prefix_text, e1, e2, e3, e4, List.tail_cons]
  simp only [bind, Option.bind, hN.reads, e5]
  rw [List.length_map]
  refine (if_pos rfl).trans ?_
  simp only [pure]
  congr 3
  exact congrArg namedOrder e6

end

end Verif.Lemmas
