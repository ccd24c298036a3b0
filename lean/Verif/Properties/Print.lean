import Verif.Lemmas.Print
import Verif.Lemmas.TimingPrint
import Verif.Spec.Vertex
import Verif.Spec.Trajectory
import Verif.Properties.Polynomial

/-!
# C165: printed vertices and segments show what they hold
-/

namespace Verif.Properties

open Verif Verif.Spec Verif.Lemmas Verif.Print Polynomial

section
variable {K : Type} {num : ℕ → K → List Char} {read : List Char → Option K} {shown : ℕ → K → K}

/-- C165, for vertices that prescribe nothing above the snap: whoever reads a printed vertex finds every prescribed derivative, in ascending order, with all its
components to four digits. -/
theorem C165_vertex_partial (hN : Numerals num read shown) (v : Vertex K) (hv : ∀ x ∈ v.constraints, 0 ≤ x.1 ∧ x.1 ≤ 4 ∧ x.2 ≠ []) :
    readVertex read (printVertex num v) = some (v.constraints.map fun x => (x.1.toNat, x.2.map (shown 4))) := by
  unfold readVertex
  rw [printVertex_lines, linesOf_pieces _ fun l hl => (vertexLines_clean hN v l hl).1, read_vertexLines hN v hv]

/-- C165, for vertices that prescribe nothing above the snap: several vertices, printed one after the other, can be told apart. -/
theorem C165_vertices_partial (hN : Numerals num read shown) (vs : List (Vertex K)) (hv : ∀ v ∈ vs, ∀ x ∈ v.constraints, 0 ≤ x.1 ∧ x.1 ≤ 4 ∧ x.2 ≠ []) :
    readVertices read (printVertices num vs) = some (vs.map fun v => v.constraints.map fun x => (x.1.toNat, x.2.map (shown 4))) := by
  have h1 : printVertices num vs = (vs.map (vertexLines num)).flatMap fun b => b.flatMap (· ++ ['\n']) ++ ['\n'] := by
    unfold printVertices
    rw [List.flatMap_map]
    exact flatMap_congr_mem fun v _ => by rw [printVertex_lines]
  unfold readVertices
  rw [h1, blocks_lines _ (fun b hb => by
    obtain ⟨v, _, rfl⟩ := List.mem_map.mp hb
    exact vertexLines_clean hN v), List.mapM_map]
  exact some_mapM _ _ _ fun v hm => read_vertexLines hN v (hv v hm)

/-- C165 fails for higher derivatives: whatever the precision, a vertex with a constraint on the fifth derivative and one with the same constraint on the sixth
are printed alike. -/
theorem C165_refuted (num : ℕ → K → List Char) (x : K) : ∃ v v' : Vertex K, WellFormed v ∧ WellFormed v' ∧ v.getConstraint 5 = some [x] ∧
    v'.getConstraint 5 = none ∧ v'.getConstraint 6 = some [x] ∧ printVertex num v = printVertex num v' :=
  ⟨⟨1, [(5, [x])]⟩, ⟨1, [(6, [x])]⟩, ⟨by simp, by simp⟩, ⟨by simp, by simp⟩, rfl, rfl, rfl, rfl⟩

end

section
variable {K : Type} [Field K] {num : ℕ → K → List Char} {read : List Char → Option K} {shown : ℕ → K → K}

theorem text_of_rows (s : Segment K) (prec : ℕ) (d : ℕ) (hd : d < s.N) (rows : List (List K)) (e1 : (s.polys.mapM fun p => Poly.getCoefficients p d) = .ok rows)
    (hne : ∀ r ∈ rows, r ≠ []) : printSegment num prec s d = .ok ((segmentLines num prec s.time d rows).flatMap (· ++ ['\n'])) := by
  unfold printSegment
  rw [if_pos ⟨by omega, by omega⟩, Int.toNat_natCast, e1]
  change Except.ok _ = Except.ok _
  congr 1
  unfold segmentLines
  rw [List.flatMap_cons, List.flatMap_cons, List.flatMap_assoc]
  congr 2
  exact flatMap_congr_mem fun x hx => dimensionText_lines prec x (hne x.1 (List.fst_mem_of_mem_zipIdx hx))

/-- The text of a regular segment. -/
theorem segment_text (s : Segment K) (hs : Regular s) (prec : ℕ) (d : ℕ) (hd : d < s.N) :
    ∃ rows, printSegment num prec s d = .ok ((segmentLines num prec s.time d rows).flatMap (· ++ ['\n'])) ∧
      List.Forall₂ (fun p r => r.length = s.N ∧ ofCoeffs r = derivative^[d] (ofCoeffs p)) s.polys rows := by
  have h1 : ∀ ps : List (Poly K), (∀ p ∈ ps, p.length = s.N) → ∃ rows, (ps.mapM fun p => Poly.getCoefficients p d) = .ok rows ∧
      List.Forall₂ (fun p r => r.length = s.N ∧ ofCoeffs r = derivative^[d] (ofCoeffs p)) ps rows ∧ ∀ r ∈ rows, r ≠ [] := by
    intro ps hps
    induction ps with
    | nil => exact ⟨[], rfl, .nil, by simp⟩
    | cons p ps ih =>
      obtain ⟨rows, e1, e2, e6⟩ := ih fun q hq => hps q (List.mem_cons_of_mem _ hq)
      have hl := hps p List.mem_cons_self
      obtain ⟨r, e3, e4, e5⟩ := (C01_getCoefficients p d (by rw [hl]; exact hs.2)).1 (by omega)
      refine ⟨r :: rows, ?_, .cons ⟨by rw [e4, hl], e5⟩ e2, ?_⟩
      · rw [List.mapM_cons, e3, e1]
        rfl
      · intro x hx
        rcases List.mem_cons.mp hx with rfl | hx
        · rintro rfl
          simp only [List.length_nil] at e4
          omega
        · exact e6 x hx
  obtain ⟨rows, e1, e2, e3⟩ := h1 s.polys hs.1
  exact ⟨rows, text_of_rows s prec d hd rows e1 e3, e2⟩

/-- C165: whoever reads a printed segment finds its duration, the derivative asked for (if it has a name) and, dimension by dimension, the coefficients of that
derivative, all to the precision of the stream; asked for a derivative out of range, the program aborts. -/
theorem C165_segment (hN : Numerals num read shown) (s : Segment K) (hs : Regular s) (prec : ℕ) (k : Int) :
    (0 ≤ k → k < s.N → ∃ text rows, printSegment num prec s k = .ok text ∧
      readSegment read text = some (shown prec s.time, if k ≤ 4 then some k.toNat else none, rows.map fun r => r.map (shown prec)) ∧
      List.Forall₂ (fun p r => r.length = s.N ∧ ofCoeffs r = derivative^[k.toNat] (ofCoeffs p)) s.polys rows) ∧
    (¬ (0 ≤ k ∧ k < s.N) → printSegment num prec s k = .error .check) := by
  refine ⟨fun h0 h1 => ?_, fun h => by unfold printSegment; rw [if_neg h]⟩
  obtain ⟨d, rfl⟩ := Int.eq_ofNat_of_zero_le h0
  obtain ⟨rows, e1, e2⟩ := segment_text (num := num) s hs prec d (by omega)
  refine ⟨_, rows, e1, ?_, e2⟩
  unfold readSegment
  rw [linesOf_pieces _ fun l hl => (segmentLines_clean hN _ _ _ _ l hl).1, read_segmentLines hN]
  congr 3
  split
  · exact name_order _ (by omega) (by assumption)
  · exact name_invalid _ (by omega)

/-- C165: several segments, printed one after the other, can be told apart. -/
theorem C165_segments (hN : Numerals num read shown) (segs : List (Segment K)) (hs : ∀ s ∈ segs, Regular s ∧ 0 < s.N) (prec : ℕ) :
    ∃ text, printSegments num prec segs = .ok text ∧
      readSegments read text = some (segs.map fun s => (shown prec s.time, some 0, s.polys.map fun p => p.map (shown prec))) := by
  have h1 : ∀ s ∈ segs, printSegment num prec s 0 = .ok ((segmentLines num prec s.time 0 s.polys).flatMap (· ++ ['\n'])) := by
    intro s hm
    obtain ⟨hr, hp⟩ := hs s hm
    have h2 : (s.polys.mapM fun p => Poly.getCoefficients p 0) = .ok s.polys := by
      generalize s.polys = ps
      induction ps with
      | nil => rfl
      | cons p ps ih =>
        rw [List.mapM_cons, ih, show Poly.getCoefficients p 0 = .ok p by unfold Poly.getCoefficients; simp]
        rfl
    refine text_of_rows s prec 0 hp _ h2 fun p hp' => ?_
    rintro rfl
    have := hr.1 _ hp'
    simp only [List.length_nil] at this
    omega
  have h3 : (segs.mapM fun s => printSegment num prec s 0) = .ok (segs.map fun s => (segmentLines num prec s.time 0 s.polys).flatMap (· ++ ['\n'])) := by
    clear hs
    induction segs with
    | nil => rfl
    | cons s segs ih =>
      rw [List.mapM_cons, h1 s List.mem_cons_self, ih fun x hx => h1 x (List.mem_cons_of_mem _ hx)]
      rfl
  refine ⟨_, by unfold printSegments; rw [h3]; rfl, ?_⟩
  have h4 : (segs.map fun s => (segmentLines num prec s.time 0 s.polys).flatMap (· ++ ['\n'])).flatMap (· ++ ['\n']) =
      (segs.map fun s => segmentLines num prec s.time 0 s.polys).flatMap fun b => b.flatMap (· ++ ['\n']) ++ ['\n'] := by
    rw [List.flatMap_map, List.flatMap_map]
  unfold readSegments
  rw [h4, blocks_lines _ (fun b hb => by
    obtain ⟨s, _, rfl⟩ := List.mem_map.mp hb
    exact segmentLines_clean hN _ _ _ _), List.mapM_map]
  exact some_mapM _ _ _ fun s _ => by
    rw [Function.comp, read_segmentLines hN]
    congr 3

end

/-! ## The hypotheses are met -/

/-- Numbers with six decimals, as `%09.6f` writes them, are such texts. -/
theorem decimals_numerals (rnd : ℚ → ℕ) : Numerals (fun _ => Timing.formatSeconds rnd) readSigned
    (fun _ x => if x < 0 then -((rnd (|x| * 10 ^ 6) : ℚ) / 10 ^ 6) else (rnd (|x| * 10 ^ 6) : ℚ) / 10 ^ 6) := by
  refine ⟨fun _ x c hc => ?_, fun _ x h => ?_, fun _ x => formatSeconds_reads rnd x⟩
  · rcases formatSeconds_chars rnd x c hc with h | h | h
    · exact .inl h
    · exact .inr (.inr (.inr (.inl h)))
    · exact .inr (.inl h)
  · have := formatSeconds_length rnd x
    rw [h] at this
    simp only [List.length_nil] at this
    omega

/-- A vertex and its text, with whole numbers. -/
example : printVertex (fun _ => Nat.toDigits 10) ⟨3, [(0, [1, 20, 300]), (2, [0, 0, 7])]⟩ =
    "constraints: \n  type: position  value: [  1,  20, 300]\n  type: acceleration  value: [0, 0, 7]\n".toList := by decide +kernel

/-- Its constraints meet the hypothesis of `C165_vertex_partial`. -/
example : ∀ x ∈ ([(0, [1, 20, 300]), (2, [0, 0, 7])] : List (Int × List ℕ)), 0 ≤ x.1 ∧ x.1 ≤ 4 ∧ x.2 ≠ [] := by decide

/-- Two dimensions of a segment, first derivative: `1 + 2 t + 30 t²` and `5 t`. -/
example : printSegment (K := ℤ) (fun _ n => Nat.toDigits 10 n.natAbs) 6 ⟨3, 2, [[1, 2, 30], [0, 5, 0]]⟩ 1 =
    .ok "t: 2\n coefficients for velocity: \ndim 0: \n 2\n60\n 0\ndim 1: \n5\n0\n0\n".toList := by decide +kernel

/-- A segment that meets the hypotheses of `C165_segment` and `C165_segments`. -/
example : Regular (⟨3, 2, [[1, 2, 30], [0, 5, 0]]⟩ : Segment ℚ) ∧ 0 < (⟨3, 2, [[1, 2, 30], [0, 5, 0]]⟩ : Segment ℚ).N :=
  ⟨⟨by simp, by norm_num⟩, by norm_num⟩

end Verif.Properties
