import Verif.Spec.PlotResults
import Verif.Properties.CsvDriver
import Verif.Properties.PrintInfo

/-!
# C167: the plots of a logged flight show the flight
-/

namespace Verif.Properties

open Verif Verif.Spec Verif.Lemmas Verif.Csv Verif.PlotResults

section
variable {K : Type*} [Field K] [LinearOrder K] [IsStrictOrderedRing K] [FloorRing K]

/-- The sample a line of the table stands for, its numbers as they are read back. -/
noncomputable def sampleOf (shown : K → ℝ) (t : K) (x v a : V3 K) : FlightSample :=
  ⟨shown t, !₂[shown x.x, shown x.y, shown x.z], !₂[shown v.x, shown v.y, shown v.z], !₂[shown a.x, shown a.y, shown a.z]⟩

/-- The line for an instant. -/
def lineOf (s : K × V3 K × V3 K × V3 K) : List K :=
  [s.1, s.2.1.x, s.2.1.y, s.2.1.z, s.2.2.1.x, s.2.2.1.y, s.2.2.1.z, s.2.2.2.x, s.2.2.2.y, s.2.2.2.z]

omit [Field K] [LinearOrder K] [IsStrictOrderedRing K] [FloorRing K] in
theorem mapM_parsed {α : Type*} {β : Type} (f : α → Option β) (g : α → β) (l : List α) (h : ∀ x ∈ l, f x = some (g x)) : l.mapM f = some (l.map g) := by
  induction l with
  | nil => rfl
  | cons x l ih =>
    rw [List.mapM_cons, h x List.mem_cons_self, ih fun y hy => h y (List.mem_cons_of_mem _ hy)]
    rfl

theorem readCsv_table (write : K → List Char) (parse : List Char → Option ℝ) (shown : K → ℝ) (hwrite : ∀ x, ',' ∉ write x ∧ '\n' ∉ write x)
    (hparse : ∀ x, parse (write x) = some (shown x)) (ss : List (K × V3 K × V3 K × V3 K)) :
    readCsv parse (fileText write (ss.map lineOf)) = some
      ((["time", "x", "y", "z", "vx", "vy", "vz", "ax", "ay", "az"].map String.toList).zipIdx.map fun n => (n.1, ss.map fun s => ((lineOf s).map shown).getD n.2 0)) := by
  have htext := C153_text write hwrite (ss.map lineOf) (by
    intro l hl
    obtain ⟨s, _, rfl⟩ := List.mem_map.mp hl
    exact List.cons_ne_nil _ _)
  have hback : ∀ l : List Char, [','].intercalate (l.splitOn ',') = l := fun l => List.intercalate_splitOn ','
  have hlines : (fileText write (ss.map lineOf)).splitOn '\n' = "time,x,y,z,vx,vy,vz,ax,ay,az".toList ::
      (ss.map (fun s => [','].intercalate ((lineOf s).map write)) ++ [[]]) := by
    have h1 := congrArg (List.map fun fs : List (List Char) => [','].intercalate fs) htext
    rw [List.map_map, show ((fun fs : List (List Char) => [','].intercalate fs) ∘ fun l : List Char => l.splitOn ',') = id from funext hback, List.map_id] at h1
    rw [h1, List.map_cons, List.map_append, List.map_map, List.map_map]
    rfl
  have hfields : ∀ s : K × V3 K × V3 K × V3 K, ([','].intercalate ((lineOf s).map write)).splitOn ',' = (lineOf s).map write := by
    intro s
    refine List.splitOn_intercalate ',' ?_ (List.cons_ne_nil _ _)
    intro x hx
    obtain ⟨y, _, rfl⟩ := List.mem_map.mp hx
    exact (hwrite y).1
  have hne : ∀ s : K × V3 K × V3 K × V3 K, [','].intercalate ((lineOf s).map write) ≠ [] := by
    intro s h
    have := hfields s
    rw [h] at this
    exact absurd (congrArg List.length this) (by simp [lineOf])
  have hfilter : ((fileText write (ss.map lineOf)).splitOn '\n').filter (fun l => decide (l ≠ [])) =
      "time,x,y,z,vx,vy,vz,ax,ay,az".toList :: ss.map (fun s => [','].intercalate ((lineOf s).map write)) := by
    rw [hlines, List.filter_cons_of_pos (by decide), List.filter_append, List.filter_eq_self.mpr (by
      intro l hl
      obtain ⟨s, _, rfl⟩ := List.mem_map.mp hl
      simpa using hne s)]
    simp
  unfold readCsv
  rw [hfilter]
  have hhead : ("time,x,y,z,vx,vy,vz,ax,ay,az".toList).splitOn ',' = ["time", "x", "y", "z", "vx", "vy", "vz", "ax", "ay", "az"].map String.toList := by decide
  have hrows : ((ss.map fun s => [','].intercalate ((lineOf s).map write)).mapM fun l : List Char =>
      if (l.splitOn ',').length = (("time,x,y,z,vx,vy,vz,ax,ay,az".toList).splitOn ',').length then (l.splitOn ',').mapM parse else none) =
      some (ss.map fun s => (lineOf s).map shown) := by
    rw [List.mapM_map]
    refine mapM_parsed _ _ _ fun s _ => ?_
    rw [Function.comp, hfields, if_pos (by rw [hhead]; simp [lineOf]), List.mapM_map]
    exact mapM_parsed _ _ _ fun x _ => hparse x
  change (do
    let rows ← (ss.map fun s => [','].intercalate ((lineOf s).map write)).mapM fun l : List Char =>
      if (l.splitOn ',').length = (("time,x,y,z,vx,vy,vz,ax,ay,az".toList).splitOn ',').length then (l.splitOn ',').mapM parse else none
    return (("time,x,y,z,vx,vy,vz,ax,ay,az".toList).splitOn ',').zipIdx.map fun n : List Char × ℕ => (n.1, rows.map fun r : List ℝ => r.getD n.2 0)) = _
  rw [hrows, hhead]
  simp only [Option.pure_def, Option.bind_eq_bind, Option.bind_some, List.map_map]
  rfl

theorem magnitude_map {α : Type*} (ss : List α) (f : α → EuclideanSpace ℝ (Fin 3)) :
    PlotResults.magnitude (ss.map fun s => f s 0) (ss.map fun s => f s 1) (ss.map fun s => f s 2) = ss.map fun s => ‖f s‖ := by
  induction ss with
  | nil => rfl
  | cons s ss ih =>
    simp only [PlotResults.magnitude, List.map_cons, List.zipWith_cons_cons] at ih ⊢
    rw [ih, EuclideanSpace.norm_eq, Fin.sum_univ_three]
    simp

theorem zip_map_map {α β γ : Type*} (ss : List α) (f : α → β) (g : α → γ) : (ss.map f).zip (ss.map g) = ss.map fun s => (f s, g s) := by
  induction ss with
  | nil => rfl
  | cons s ss ih => rw [List.map_cons, List.map_cons, List.zip_cons_cons, ih, List.map_cons]

/-- C167: drawn from the file of a table, the figures show every line of it, its numbers as they are read back. -/
theorem C167_figures (write : K → List Char) (parse : List Char → Option ℝ) (shown : K → ℝ) (hwrite : ∀ x, ',' ∉ write x ∧ '\n' ∉ write x)
    (hparse : ∀ x, parse (write x) = some (shown x)) (ss : List (K × V3 K × V3 K × V3 K)) :
    ∃ f, plotResults parse (fileText write (ss.map lineOf)) = some f ∧ ShowsFlight f (ss.map fun s => sampleOf shown s.1 s.2.1 s.2.2.1 s.2.2.2) := by
  unfold plotResults
  rw [readCsv_table write parse shown hwrite hparse ss]
  have hc : ∀ (i : ℕ) (name : String), ["time", "x", "y", "z", "vx", "vy", "vz", "ax", "ay", "az"][i]? = some name →
      column ((["time", "x", "y", "z", "vx", "vy", "vz", "ax", "ay", "az"].map String.toList).zipIdx.map
        fun n => (n.1, ss.map fun s => ((lineOf s).map shown).getD n.2 0)) name = some (ss.map fun s => ((lineOf s).map shown).getD i 0) := by
    intro i name h
    have hi : i < 10 := (List.getElem?_eq_some_iff.mp h).1
    interval_cases i <;> (cases h; rfl)
  let c : ℕ → K × V3 K × V3 K × V3 K → ℝ := fun i s => ((lineOf s).map shown).getD i 0
  let p : ℕ → List (ℝ × ℝ) := fun i => ss.map fun s => (c 0 s, c i s)
  refine ⟨⟨[("Position", [⟨"x", p 1⟩, ⟨"y", p 2⟩, ⟨"z", p 3⟩]), ("Velocity", [⟨"vx", p 4⟩, ⟨"vy", p 5⟩, ⟨"vz", p 6⟩]),
    ("Acceleration", [⟨"ax", p 7⟩, ⟨"ay", p 8⟩, ⟨"az", p 9⟩]),
    ("Velocity Magnitude", [⟨"|v|", ss.map fun s => (c 0 s, ‖(!₂[c 4 s, c 5 s, c 6 s] : EuclideanSpace ℝ (Fin 3))‖)⟩]),
    ("Acceleration Magnitude", [⟨"|a|", ss.map fun s => (c 0 s, ‖(!₂[c 7 s, c 8 s, c 9 s] : EuclideanSpace ℝ (Fin 3))‖)⟩])],
    ss.map fun s => (c 1 s, c 2 s, c 3 s)⟩, ?_, ?_⟩
  · have m1 : PlotResults.magnitude (ss.map (c 4)) (ss.map (c 5)) (ss.map (c 6)) = ss.map fun s => ‖(!₂[c 4 s, c 5 s, c 6 s] : EuclideanSpace ℝ (Fin 3))‖ :=
      magnitude_map ss fun s => !₂[c 4 s, c 5 s, c 6 s]
    have m2 : PlotResults.magnitude (ss.map (c 7)) (ss.map (c 8)) (ss.map (c 9)) = ss.map fun s => ‖(!₂[c 7 s, c 8 s, c 9 s] : EuclideanSpace ℝ (Fin 3))‖ :=
      magnitude_map ss fun s => !₂[c 7 s, c 8 s, c 9 s]
    have h0 := hc 0 "time" rfl
    have h1 := hc 1 "x" rfl
    have h2 := hc 2 "y" rfl
    have h3 := hc 3 "z" rfl
    have h4 := hc 4 "vx" rfl
    have h5 := hc 5 "vy" rfl
    have h6 := hc 6 "vz" rfl
    have h7 := hc 7 "ax" rfl
    have h8 := hc 8 "ay" rfl
    have h9 := hc 9 "az" rfl
    clear hc
    generalize ((["time", "x", "y", "z", "vx", "vy", "vz", "ax", "ay", "az"].map String.toList).zipIdx.map
        fun n => (n.1, ss.map fun s => ((lineOf s).map shown).getD n.2 0)) = data at h0 h1 h2 h3 h4 h5 h6 h7 h8 h9 ⊢
    have hb : ∀ {α β : Type} (a : α) (f : α → Option β), (some a >>= f) = f a := fun _ _ => rfl
    rw [hb, h0, hb, h1, hb, h2, hb, h3, hb, h4, hb, h5, hb, h6, hb, h7, hb, h8, hb, h9, hb]
    change some (Figures.mk [("Position", [⟨"x", (ss.map (c 0)).zip (ss.map (c 1))⟩, ⟨"y", (ss.map (c 0)).zip (ss.map (c 2))⟩, ⟨"z", (ss.map (c 0)).zip (ss.map (c 3))⟩]),
      ("Velocity", [⟨"vx", (ss.map (c 0)).zip (ss.map (c 4))⟩, ⟨"vy", (ss.map (c 0)).zip (ss.map (c 5))⟩, ⟨"vz", (ss.map (c 0)).zip (ss.map (c 6))⟩]),
      ("Acceleration", [⟨"ax", (ss.map (c 0)).zip (ss.map (c 7))⟩, ⟨"ay", (ss.map (c 0)).zip (ss.map (c 8))⟩, ⟨"az", (ss.map (c 0)).zip (ss.map (c 9))⟩]),
      ("Velocity Magnitude", [⟨"|v|", (ss.map (c 0)).zip (PlotResults.magnitude (ss.map (c 4)) (ss.map (c 5)) (ss.map (c 6)))⟩]),
      ("Acceleration Magnitude", [⟨"|a|", (ss.map (c 0)).zip (PlotResults.magnitude (ss.map (c 7)) (ss.map (c 8)) (ss.map (c 9)))⟩])]
      ((ss.map (c 1)).zip ((ss.map (c 2)).zip (ss.map (c 3))))) = _
    rw [m1, m2]
    simp only [zip_map_map]
    rfl
  · refine ⟨fun i => ?_, fun i => ?_, fun i => ?_, ?_, ?_, ?_⟩
    · fin_cases i <;> (rw [List.map_map]; rfl)
    · fin_cases i <;> (rw [List.map_map]; rfl)
    · fin_cases i <;> (rw [List.map_map]; rfl)
    · (rw [List.map_map]; rfl)
    · (rw [List.map_map]; rfl)
    · (rw [List.map_map]; rfl)

/-- C167, of the whole chain: drawn from the file that the flight of a route was written to, the figures show the flight from rest at the reported position through the
route, line by line, at the instants C153 gives for the lines. -/
theorem C167_flight (env : Env K) (henv : Segmentwise env) (hmeets : MeetsVertices env) (C : K) (p : V3 K) (speed : K) (ns : List (String × V3 K)) (dt : K)
    (ls : List (List K)) (hne : ns ≠ []) (hdt : 0 < dt) (h : Writes env C p speed ns dt ls) (write : K → List Char) (parse : List Char → Option ℝ) (shown : K → ℝ)
    (hwrite : ∀ x, ',' ∉ write x ∧ '\n' ∉ write x) (hparse : ∀ x, parse (write x) = some (shown x)) :
    ∃ (tr : Trajectory K) (i : ℕ) (ss : List (K × V3 K × V3 K × V3 K)) (f : Figures), FliesThrough p ns tr ∧ (i = 0 ∨ (i : K) / 10 < 3 * C) ∧
      plotResults parse (fileText write ls) = some f ∧ ShowsFlight f (ss.map fun s => sampleOf shown s.1 s.2.1 s.2.2.1 s.2.2.2) ∧
      ss.length = ls.length ∧ ss.length = ⌈(tr.maxTime - dt) / dt⌉₊ ∧ ∀ (k : ℕ) (t : K) (x v a : V3 K), ss[k]? = some (t, x, v, a) → t = k * dt ∧
        tr.evaluate (min (t + (i : K) / 10 + 1 / 10) tr.maxTime) 0 = .ok [x.x, x.y, x.z] ∧
        tr.evaluate (min (t + (i : K) / 10 + 1 / 10) tr.maxTime) 1 = .ok [v.x, v.y, v.z] ∧
        tr.evaluate (min (t + (i : K) / 10 + 1 / 10) tr.maxTime) 2 = .ok [a.x, a.y, a.z] := by
  obtain ⟨tr, i, h1, h2, _, h4, h5⟩ := C153_partial env henv hmeets C p speed ns dt ls hne hdt h
  have hall : ∀ l ∈ ls, ∃ s, lineOf s = l := by
    intro l hl
    obtain ⟨k, hk⟩ := List.mem_iff_getElem?.mp hl
    obtain ⟨x, v, a, e, _⟩ := h5 k l hk
    exact ⟨(k * dt, x, v, a), e.symm⟩
  obtain ⟨ss, rfl⟩ : ∃ ss : List (K × V3 K × V3 K × V3 K), ss.map lineOf = ls := by
    clear h h4 h5
    induction ls with
    | nil => exact ⟨[], rfl⟩
    | cons l ls ih =>
      obtain ⟨s, hs⟩ := hall l List.mem_cons_self
      obtain ⟨ss, hss⟩ := ih fun l' hl' => hall l' (List.mem_cons_of_mem _ hl')
      exact ⟨s :: ss, by rw [List.map_cons, hs, hss]⟩
  obtain ⟨f, e1, e2⟩ := C167_figures write parse shown hwrite hparse ss
  refine ⟨tr, i, ss, f, h1, h2, e1, e2, by simp, by simpa using h4, ?_⟩
  intro k t x v a hk
  obtain ⟨x', v', a', e, g0, g1, g2⟩ := h5 k _ (by rw [List.getElem?_map, hk]; rfl)
  simp only [lineOf, List.cons.injEq, and_true] at e
  obtain ⟨rfl, b1, b2, b3, b4, b5, b6, b7, b8, b9⟩ := e
  exact ⟨rfl, by rw [b1, b2, b3]; exact g0, by rw [b4, b5, b6]; exact g1, by rw [b7, b8, b9]; exact g2⟩

end

/-! ## The hypotheses are met -/

/-- The sample flight, written with six decimals and drawn. -/
example : ∃ (ls : List (List ℚ)) (ss : List FlightSample) (f : Figures), ls.length = 39 ∧ Writes hermiteEnv (1 / 100) ⟨0, 0, 0⟩ 2 csvNames (1 / 20) ls ∧
    plotResults (fun s => (readSigned (K := ℚ) s).map fun q => (q : ℝ)) (fileText (Timing.formatSeconds fun x => ⌊x + 1 / 2⌋₊) ls) = some f ∧ ShowsFlight f ss ∧
    ss.length = 39 := by
  obtain ⟨s2, ls, _, hw, hlen, _⟩ := csvSample
  have hN := decimals_numerals fun x => ⌊x + 1 / 2⌋₊
  obtain ⟨tr, i, ss, f, _, _, h3, h4, h5, _⟩ := C167_flight hermiteEnv hermite_segmentwise hermite_meets (1 / 100) ⟨0, 0, 0⟩ 2 csvNames (1 / 20) ls
    (by simp [csvNames]) (by norm_num) hw (Timing.formatSeconds fun x => ⌊x + 1 / 2⌋₊) (fun s => (readSigned (K := ℚ) s).map fun q => (q : ℝ)) _
    (fun x => ⟨numeral_free hN 0 x ',' (by decide), numeral_free hN 0 x '\n' (by decide)⟩)
    (fun x => by rw [hN.reads 0 x]; rfl)
  exact ⟨ls, _, f, hlen, hw, h3, h4, by rw [List.length_map, h5, hlen]⟩

end Verif.Properties
