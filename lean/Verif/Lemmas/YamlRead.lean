import Verif.Lemmas.YamlLines

set_option linter.unusedSectionVars false

/-!
# Reading complete and incomplete entries
-/

namespace Verif.IO

open Verif.Spec

variable {K : Type} [Field K] [LinearOrder K] [IsStrictOrderedRing K] [FloorRing K]

/-- A row that reads as these coefficients. -/
def RowReads (N : ℕ) (y : Yaml K) (p : Poly K) : Prop :=
  y.size = .ok N ∧ ((List.range N).mapM fun k => do (← y.idx k).asDouble) = .ok p

/-- The row of one dimension. -/
def txtRow (nt : NumberText K) (p : Poly K) : Yaml K := .seq (p.map fun x => scalarOf nt (nt.write x))

theorem txtRow_reads (nt : NumberText K) (hf : Faithful nt) (p : Poly K) : RowReads p.length (txtRow nt p) p := by
  refine ⟨by simp [txtRow, Yaml.size], ?_⟩
  rw [Sampling.mapM_range_ok p.length _ (fun i => p.getD i 0)]
  · congr 1
    apply List.ext_getElem
    · simp
    · intro n h1 h2
      simp [List.getD_eq_getElem?_getD, h2]
  · intro i hi
    simp only [txtRow, idx_seq, ok_bind]
    rw [List.getD_eq_getElem?_getD, List.getElem?_map, List.getElem?_eq_getElem hi]
    simp only [Option.map_some, Option.getD_some, asDouble_write nt hf]
    simp [List.getD_eq_getElem?_getD, hi]

theorem null_reads : RowReads 0 (Yaml.null : Yaml K) [] := ⟨rfl, rfl⟩

theorem fileCoefficients_rows (N : ℕ) (l rows rest : List (Yaml K)) (ps : List (Poly K)) (hr : List.Forall₂ (RowReads N) rows ps) (i n : ℕ)
    (h : l.drop i = rows ++ rest) :
    fileCoefficients N (.seq l) i (rows.length + n) = (do
      match ← fileCoefficients N (.seq l) (i + rows.length) n with
      | none => return none
      | some cs => return some (ps ++ cs)) := by
  induction hr generalizing i with
  | nil =>
    simp only [List.length_nil, Nat.zero_add, Nat.add_zero, List.nil_append]
    cases fileCoefficients N (.seq l) i n with
    | error e => rfl
    | ok o => cases o <;> rfl
  | @cons y p rows ps hy hr ih =>
    obtain ⟨h1, h2⟩ := drop_cons_get h Yaml.undefined
    rw [List.length_cons, show rows.length + 1 + n = (rows.length + n) + 1 by omega, fileCoefficients_succ]
    simp only [idx_seq, ok_bind, h1, hy.1, hy.2, ih (i + 1) h2, res_pure]
    rw [show i + (rows.length + 1) = i + 1 + rows.length by omega]
    cases fileCoefficients N (.seq l) (i + 1 + rows.length) n with
    | error e => simp only [ne_eq, not_true_eq_false, if_false]; rfl
    | ok o => cases o <;> simp only [ne_eq, not_true_eq_false, if_false, ok_bind, List.cons_append]

/-- The entries of a segment before its coefficients. -/
def hdr (s : Segment K) : List (String × Yaml K) := [("N", .int s.N), ("D", .int s.D), ("time", .int (nsOf s))]

/-- The entry of a segment. -/
def txtTree (nt : NumberText K) (s : Segment K) : Yaml K := .map (hdr s ++ [("coefficients", .seq (s.polys.map (txtRow nt)))])

theorem segmentFromTree_hdr (s : Segment K) (h : Storable s) (y : Yaml K) (hy : y.isDefined = true) :
    segmentFromTree (.map (hdr s ++ [("coefficients", y)])) = (do
      if (← y.size) ≠ s.D then return none
      match ← fileCoefficients s.N y 0 s.D with
      | none => return none
      | some cs => return some (setTimeNSec ⟨s.N, 0, cs⟩ (nsOf s))) := by
  have hD : s.D < 2 ^ 31 := h.dimensions
  have g1 : (Yaml.map (hdr s ++ [("coefficients", y)])).get "N" = .ok (.int s.N) := id rfl
  have g2 : (Yaml.map (hdr s ++ [("coefficients", y)])).get "D" = .ok (.int s.D) := id rfl
  have g3 : (Yaml.map (hdr s ++ [("coefficients", y)])).get "time" = .ok (.int (nsOf s)) := id rfl
  have g4 : (Yaml.map (hdr s ++ [("coefficients", y)])).get "coefficients" = .ok y := id rfl
  have hN : (Segment.mk' s.N s.D : Segment K).N = s.N := rfl
  unfold segmentFromTree
  simp only [g1, g2, g3, g4, ok_bind, res_pure, Yaml.isDefined.eq_def]
  rw [Yaml.isDefined.eq_def] at hy
  simp only [hy, asInt_ok s.N h.coefficients, asInt_ok s.D hD, makeSegment_ok, mk'_D, asUInt64_ok _ (ns_lt s h), and_self, if_true, hN, ok_bind]
  rfl

theorem read_short (s : Segment K) (h : Storable s) (y : Yaml K) (hy : y.isDefined = true) (n : ℕ) (hn : y.size = .ok n) (hne : n ≠ s.D) :
    segmentFromTree (.map (hdr s ++ [("coefficients", y)])) = .ok none := by
  rw [segmentFromTree_hdr s h y hy]
  simp only [hn, ok_bind, ne_eq, hne, not_false_eq_true, if_true, res_pure]

theorem read_rows (s : Segment K) (h : Storable s) (rows : List (Yaml K)) (hr : List.Forall₂ (RowReads s.N) rows s.polys) :
    segmentFromTree (.map (hdr s ++ [("coefficients", .seq rows)])) = .ok (some (back s)) := by
  have hl := hr.length_eq
  have := fileCoefficients_rows s.N rows rows [] s.polys hr 0 0 (by simp)
  rw [segmentFromTree_hdr s h _ rfl]
  rw [Nat.add_zero, hl] at this
  simp only [Yaml.size, ok_bind, hl, Segment.D, ne_eq, not_true_eq_false, if_false, this, fileCoefficients, res_pure, List.append_nil]
  rfl

theorem declared_rows (nt : NumberText K) (hf : Faithful nt) (N : ℕ) (ps : List (Poly K)) (hd : ∀ p ∈ ps, p.length = N) :
    List.Forall₂ (RowReads N) (ps.map (txtRow nt)) ps := by
  rw [List.forall₂_map_left_iff, List.forall₂_same]
  intro p hp
  have := txtRow_reads nt hf p
  rwa [hd p hp] at this

theorem read_txtTree (nt : NumberText K) (hf : Faithful nt) (s : Segment K) (h : Storable s) (hd : Declared s) :
    segmentFromTree (txtTree nt s) = .ok (some (back s)) := read_rows s h _ (declared_rows nt hf s.N s.polys hd)

/-- The last row is missing its coefficients. -/
theorem read_last_row_none (nt : NumberText K) (hf : Faithful nt) (s : Segment K) (h : Storable s) (hd : Declared s) (ps : List (Poly K)) (p : Poly K) (hp : s.polys = ps ++ [p])
    (hN : s.N ≠ 0) : segmentFromTree (.map (hdr s ++ [("coefficients", .seq (ps.map (txtRow nt) ++ [.null]))])) = .ok none := by
  have hps := declared_rows nt hf s.N ps (fun q hq => hd q (by rw [hp]; simp [hq]))
  rw [segmentFromTree_hdr s h _ rfl]
  have hl : (ps.map (txtRow nt) ++ [Yaml.null]).length = s.D := by simp [Segment.D, hp]
  have := fileCoefficients_rows s.N (ps.map (txtRow nt) ++ [Yaml.null]) (ps.map (txtRow nt)) [Yaml.null] ps hps 0 1 (by simp)
  have hD : s.D = (ps.map (txtRow nt)).length + 1 := by rw [← hl]; simp
  have hlast : fileCoefficients s.N (.seq (ps.map (txtRow nt) ++ [Yaml.null])) (0 + (ps.map (txtRow nt)).length) 1 = .ok none := by
    rw [fileCoefficients_succ]
    simp only [idx_seq, ok_bind]
    rw [List.getD_eq_getElem?_getD, Nat.zero_add, List.getElem?_append_right (le_refl _)]
    simp only [Nat.sub_self, List.getElem?_cons_zero, Option.getD_some, Yaml.size, ok_bind]
    rw [if_pos (Ne.symm hN)]
    rfl
  simp only [Yaml.size, ok_bind, hl, ne_eq, not_true_eq_false, if_false]
  rw [hD, this, hlast]
  rfl

/-- The last row is missing its coefficients: refused, unless there are none. -/
theorem read_last_row (nt : NumberText K) (hf : Faithful nt) (s : Segment K) (h : Storable s) (hd : Declared s) (ps : List (Poly K)) (p : Poly K) (hp : s.polys = ps ++ [p]) :
    segmentFromTree (.map (hdr s ++ [("coefficients", .seq (ps.map (txtRow nt) ++ [.null]))])) = .ok none ∨
    segmentFromTree (.map (hdr s ++ [("coefficients", .seq (ps.map (txtRow nt) ++ [.null]))])) = .ok (some (back s)) := by
  have hps := declared_rows nt hf s.N ps (fun q hq => hd q (by rw [hp]; simp [hq]))
  by_cases hN : s.N = 0
  · right
    apply read_rows s h
    have hp0 : p = [] := List.length_eq_zero_iff.mp (by rw [hd p (by rw [hp]; simp), hN])
    rw [hp, hp0]
    refine List.rel_append hps ?_
    refine .cons ?_ .nil
    rw [hN]; exact null_reads
  · left
    exact read_last_row_none nt hf s h hd ps p hp hN

theorem read_no_dimensions (s : Segment K) (h : Storable s) (hD : s.polys = []) :
    segmentFromTree (.map (hdr s ++ [("coefficients", .null)])) = .ok (some (back s)) := by
  rw [segmentFromTree_hdr s h _ rfl]
  have : s.D = 0 := by simp [Segment.D, hD]
  obtain ⟨N, t, ps⟩ := s
  simp only at hD
  subst hD
  rfl

theorem read_missing (l : List (String × Yaml K)) (hl : l.lookup "coefficients" = none) : segmentFromTree (.map l) = .ok none := by
  have g : (Yaml.map l).get "coefficients" = .ok .undefined := by simp [Yaml.get, hl]
  unfold segmentFromTree
  simp only [g, ok_bind, Yaml.isDefined]
  cases h1 : (Yaml.map l).get "N" with
  | error e => simp [Yaml.get] at h1
  | ok a =>
    cases h2 : (Yaml.map l).get "D" with
    | error e => simp [Yaml.get] at h2
    | ok b =>
      cases h3 : (Yaml.map l).get "time" with
      | error e => simp [Yaml.get] at h3
      | ok c =>
        simp only [ok_bind]
        rw [if_neg (by simp)]
        rfl

theorem read_scalar (y : Yaml K) (hy : IsScalar y) : segmentFromTree y = .ok none ∨ segmentFromTree y = .error .exc := by
  cases y with
  | null => left; rfl
  | int z => right; rfl
  | real x => right; rfl
  | text s => right; rfl
  | seq l => exact absurd hy id
  | map l => exact absurd hy id
  | undefined => exact absurd hy id

/-- Entries that read as segments, followed by others. -/
theorem fileSegments_read (l ys rest : List (Yaml K)) (bs : List (Segment K)) (hr : List.Forall₂ (fun y b => segmentFromTree y = .ok (some b)) ys bs) (i n : ℕ)
    (h : l.drop i = ys ++ rest) :
    fileSegments (.seq l) i (ys.length + n) = (do let r ← fileSegments (.seq l) (i + ys.length) n; return (r.1, bs ++ r.2)) := by
  induction hr generalizing i with
  | nil =>
    simp only [List.length_nil, Nat.zero_add, Nat.add_zero, List.nil_append]
    cases fileSegments (.seq l) i n <;> rfl
  | @cons y b ys bs hy hr ih =>
    obtain ⟨h1, h2⟩ := drop_cons_get h Yaml.undefined
    rw [List.length_cons, show ys.length + 1 + n = (ys.length + n) + 1 by omega, fileSegments_succ]
    simp only [idx_seq, ok_bind, h1, hy, ih (i + 1) h2, res_pure]
    rw [show i + (ys.length + 1) = i + 1 + ys.length by omega]
    cases fileSegments (.seq l) (i + 1 + ys.length) n <;> rfl

/-- The document with these entries. -/
def docOf (ys : List (Yaml K)) : Yaml K := .map [("segments", .seq ys)]

theorem segmentsFromFile_doc (ys : List (Yaml K)) (old : List (Segment K)) : segmentsFromFile (some (docOf ys)) old = fileSegments (.seq ys) 0 ys.length := rfl

theorem read_doc (ys : List (Yaml K)) (bs : List (Segment K)) (hr : List.Forall₂ (fun y b => segmentFromTree y = .ok (some b)) ys bs) (old : List (Segment K)) :
    segmentsFromFile (some (docOf ys)) old = .ok (true, bs) := by
  have := fileSegments_read ys ys [] bs hr 0 0 (by simp)
  rw [segmentsFromFile_doc, ← Nat.add_zero ys.length, this]
  simp [fileSegments]

theorem read_doc_entry (ys : List (Yaml K)) (bs : List (Segment K)) (hr : List.Forall₂ (fun y b => segmentFromTree y = .ok (some b)) ys bs) (old : List (Segment K)) (y : Yaml K) :
    segmentsFromFile (some (docOf (ys ++ [y]))) old = (do
      match ← segmentFromTree y with
      | none => return (false, bs)
      | some s => return (true, bs ++ [s])) := by
  have := fileSegments_read (ys ++ [y]) ys [y] bs hr 0 1 (by simp)
  rw [segmentsFromFile_doc, show (ys ++ [y]).length = ys.length + 1 by simp, this, fileSegments_succ]
  simp only [idx_seq, ok_bind, Nat.zero_add]
  rw [List.getD_eq_getElem?_getD, List.getElem?_append_right (le_refl _)]
  simp only [Nat.sub_self, List.getElem?_cons_zero, Option.getD_some]
  cases segmentFromTree y with
  | error e => rfl
  | ok o =>
    cases o with
    | none => simp only [ok_bind, res_pure, List.append_nil]
    | some s => simp only [ok_bind, res_pure, fileSegments]

end Verif.IO
