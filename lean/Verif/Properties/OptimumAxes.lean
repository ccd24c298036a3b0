import Verif.Spec.OptimumAxes
import Verif.Properties.OptimumCost
import Verif.Properties.OptimumUnique
import Verif.Properties.OptimumFrame
import Verif.Properties.Vertex
import Verif.Lemmas.IO

/-!
# C172: axes planned apart
-/

namespace Verif.Properties

open Verif Verif.Spec Verif.Lemmas Verif.LinOpt

/-- Entries of a vector. -/
def entries (axes : List ℕ) (c : List ℝ) : List ℝ := axes.map fun n => c.getD n 0

/-- What the reduced mission prescribes. -/
structure Reduced (h : ℕ) (axes : List ℕ) (q q' : Problem ℝ) : Prop where
  times : q'.times = q.times
  derivative : q'.derivative = q.derivative
  length : q'.vertices.length = q.vertices.length
  get : ∀ (i : ℕ) (v v' : Vertex ℝ), q.vertices[i]? = some v → q'.vertices[i]? = some v' → ∀ k < h, v'.getConstraint (k : ℕ) = (v.getConstraint (k : ℕ)).map (entries axes)

theorem someAxes_segDeriv (axes : List ℕ) (s : Segment ℝ) (ha : ∀ n ∈ axes, n < s.polys.length) (k : ℕ) (x : ℝ) :
    segDeriv (someAxes axes s) k x = entries axes (segDeriv s k x) := by
  unfold segDeriv someAxes entries
  rw [List.map_map]
  refine List.map_congr_left fun n hn => ?_
  have := ha n hn
  simp [List.getD_eq_getElem?_getD, this]

theorem someAxes_candidate {h dim : ℕ} {axes : List ℕ} {q q' : Problem ℝ} (hr : Reduced h axes q q') (ha : ∀ n ∈ axes, n < dim) {a : List (Segment ℝ)}
    (hc : Candidate h dim q a) : Candidate h axes.length q' (a.map (someAxes axes)) := by
  have hd : ∀ s ∈ a, ∀ k x, segDeriv (someAxes axes s) k x = entries axes (segDeriv s k x) := fun s hs =>
    someAxes_segDeriv axes s (by rw [hc.dims s hs]; exact ha)
  have vert : ∀ (i k : ℕ) (v' : Vertex ℝ) (c : List ℝ), k < h → q'.vertices[i]? = some v' → v'.getConstraint (k : ℕ) = some c →
      ∃ v c0, q.vertices[i]? = some v ∧ v.getConstraint (k : ℕ) = some c0 ∧ c = entries axes c0 := by
    intro i k v' c hk hv hcc
    obtain ⟨hi, _⟩ := List.getElem?_eq_some_iff.mp hv
    have hv0 : q.vertices[i]? = some (q.vertices[i]'(hr.length ▸ hi)) := List.getElem?_eq_getElem _
    rw [hr.get i _ v' hv0 hv k hk, Option.map_eq_some_iff] at hcc
    obtain ⟨c0, e1, e2⟩ := hcc
    exact ⟨_, c0, hv0, e1, e2.symm⟩
  refine ⟨?_, ?_, ?_, ?_, ?_⟩
  · rw [List.map_map, hr.times, ← hc.times]; rfl
  · intro s hs
    obtain ⟨s, _, rfl⟩ := List.mem_map.mp hs
    simp [someAxes]
  · intro s' hs' p hp
    obtain ⟨s, hs, rfl⟩ := List.mem_map.mp hs'
    simp only [someAxes, List.mem_map] at hp
    obtain ⟨n, hn, rfl⟩ := hp
    have hl : n < s.polys.length := by rw [hc.dims s hs]; exact ha n hn
    rw [List.getD_eq_getElem _ _ hl]
    exact hc.degree s hs _ (List.getElem_mem hl)
  · intro i s' hs k c hk
    rw [List.getElem?_map, Option.map_eq_some_iff] at hs
    obtain ⟨s, hs, rfl⟩ := hs
    have hm := List.mem_of_getElem? hs
    refine ⟨fun v hv hcc => ?_, fun v hv hcc => ?_⟩
    · obtain ⟨v0, c0, e1, e2, rfl⟩ := vert i k v c hk hv hcc
      rw [hd s hm, (hc.constraints i s hs k c0 hk).1 v0 e1 e2]
    · obtain ⟨v0, c0, e1, e2, rfl⟩ := vert (i + 1) k v c hk hv hcc
      rw [hd s hm, show (someAxes axes s).time = s.time from rfl, (hc.constraints i s hs k c0 hk).2 v0 e1 e2]
  · intro i s t hs ht k hk
    rw [List.getElem?_map, Option.map_eq_some_iff] at hs ht
    obtain ⟨s, hs, rfl⟩ := hs
    obtain ⟨t, ht, rfl⟩ := ht
    rw [hd s (List.mem_of_getElem? hs), hd t (List.mem_of_getElem? ht), show (someAxes axes s).time = s.time from rfl, hc.smooth i s t hs ht k hk]

/-! ## The integral is the sum of those of the axes -/

theorem energy_someAxes (d : ℕ) (axes : List ℕ) (a : List (Segment ℝ)) :
    energy d (a.map (someAxes axes)) = (axes.map fun n => energy d (a.map (someAxes [n]))).sum := by
  induction a with
  | nil => simp [energy]
  | cons s a ih =>
    have e : ∀ axes, energy d ((s :: a).map (someAxes axes)) = (axes.map fun n => polyEnergy d s.time (s.polys.getD n [])).sum + energy d (a.map (someAxes axes)) := by
      intro axes
      simp [energy, someAxes, Function.comp_def]
    rw [e axes, ih, ← List.sum_map_add]
    congr 1
    refine List.map_congr_left fun n _ => ?_
    rw [e [n]]
    simp

theorem someAxes_all (dim : ℕ) (s : Segment ℝ) (hs : s.polys.length = dim) : someAxes (List.range dim) s = s := by
  unfold someAxes
  have : ((List.range dim).map fun n => s.polys.getD n []) = s.polys := by
    apply List.ext_getElem
    · simp [hs]
    · intro i h1 h2
      simp [List.getD_eq_getElem?_getD, h2]
  rw [this]

theorem map_someAxes_all (dim : ℕ) (a : List (Segment ℝ)) (ha : ∀ s ∈ a, s.polys.length = dim) : a.map (someAxes (List.range dim)) = a := by
  conv_rhs => rw [← List.map_id a]
  exact List.map_congr_left fun s hs => someAxes_all dim s (ha s hs)

/-! ## One axis replaced -/

/-- The segment `s` with axis `n` taken from the segment `t` of one axis. -/
def withAxis (n : ℕ) (s t : Segment ℝ) : Segment ℝ := { s with polys := s.polys.set n (t.polys.getD 0 []) }

theorem withAxis_segDeriv (n : ℕ) (s t : Segment ℝ) (ht : t.polys.length = 1) (k : ℕ) (x : ℝ) (c : List ℝ) (hc : (segDeriv s k x) = c)
    (he : segDeriv t k x = entries [n] c) (hn : n < s.polys.length) : segDeriv (withAxis n s t) k x = c := by
  obtain ⟨p, hp⟩ := List.length_eq_one_iff.mp ht
  subst hc
  simp only [segDeriv, hp, entries, List.map_cons, List.map_nil, List.cons.injEq, and_true] at he
  unfold segDeriv withAxis
  rw [List.map_set, hp]
  simp only [List.getD_cons_zero]
  rw [he]
  apply List.ext_getElem
  · simp
  · intro i h1 h2
    rw [List.getElem_set]
    split
    · rename_i h
      subst h
      simp [List.getD_eq_getElem?_getD, hn]
    · rfl

theorem energy_withAxis (d n : ℕ) (a b : List (Segment ℝ)) (h : List.Forall₂ (fun s t => s.time = t.time ∧ n < s.polys.length ∧ t.polys.length = 1) a b) :
    energy d (List.zipWith (withAxis n) a b) = energy d a - energy d (a.map (someAxes [n])) + energy d b := by
  induction h with
  | nil => simp [energy]
  | @cons s t a b h _ ih =>
    obtain ⟨h1, h2, h3⟩ := h
    obtain ⟨p, hp⟩ := List.length_eq_one_iff.mp h3
    have e : ∀ (x : Segment ℝ) l, energy d (x :: l) = (x.polys.map (polyEnergy d x.time)).sum + energy d l := fun x l => by simp [energy]
    rw [List.zipWith_cons_cons, List.map_cons, e, e, e, e, ih]
    have : ((withAxis n s t).polys.map (polyEnergy d (withAxis n s t).time)).sum =
        (s.polys.map (polyEnergy d s.time)).sum - polyEnergy d s.time (s.polys.getD n []) + polyEnergy d s.time p := by
      simp only [withAxis, hp, List.getD_cons_zero]
      rw [List.map_set, List.sum_set', dif_pos (by simpa using h2)]
      simp [List.getD_eq_getElem?_getD, h2]
      ring
    rw [this]
    simp [someAxes, hp, h1]
    ring

theorem withAxis_candidate {h dim n : ℕ} {q q' : Problem ℝ} (hr : Reduced h [n] q q') (hn : n < dim)
    {a b : List (Segment ℝ)} (ha : Candidate h dim q a) (hb : Candidate h 1 q' b) : Candidate h dim q (List.zipWith (withAxis n) a b) ∧
    List.Forall₂ (fun s t => s.time = t.time ∧ n < s.polys.length ∧ t.polys.length = 1) a b := by
  have ht : a.map (·.time) = b.map (·.time) := by rw [ha.times, hb.times, hr.times]
  have hl : a.length = b.length := by simpa using congrArg List.length ht
  have hlt : a.length = q.times.length := by simpa using congrArg List.length ha.times
  have htime : ∀ (i : ℕ) (s t : Segment ℝ), a[i]? = some s → b[i]? = some t → s.time = t.time := by
    intro i s t hs hti
    have := congrArg (·[i]?) ht
    simpa [hs, hti] using this
  have split : ∀ (i : ℕ) (r : Segment ℝ), (List.zipWith (withAxis n) a b)[i]? = some r → ∃ s t, a[i]? = some s ∧ b[i]? = some t ∧ r = withAxis n s t := by
    intro i r hi
    rw [List.getElem?_zipWith] at hi
    cases e1 : a[i]? with
    | none => simp [e1] at hi
    | some s =>
      cases e2 : b[i]? with
      | none => simp [e1, e2] at hi
      | some t =>
        rw [e1, e2] at hi
        exact ⟨s, t, rfl, rfl, (Option.some.inj hi).symm⟩
  have nlt : ∀ s ∈ a, n < s.polys.length := fun s hs => by rw [ha.dims s hs]; exact hn
  have vert : ∀ (i k : ℕ) (v : Vertex ℝ) (c : List ℝ), k < h → q.vertices[i]? = some v → v.getConstraint (k : ℕ) = some c →
      ∃ v', q'.vertices[i]? = some v' ∧ v'.getConstraint (k : ℕ) = some (entries [n] c) := by
    intro i k v c hk hvi hcc
    obtain ⟨hi, _⟩ := List.getElem?_eq_some_iff.mp hvi
    have hv0 : q'.vertices[i]? = some (q'.vertices[i]'(hr.length ▸ hi)) := List.getElem?_eq_getElem _
    refine ⟨_, hv0, ?_⟩
    rw [hr.get i v _ hvi hv0 k hk, hcc]
    rfl
  refine ⟨⟨?_, ?_, ?_, ?_, ?_⟩, ?_⟩
  · rw [← ha.times]
    apply List.ext_getElem
    · simp [hl]
    · intro i h1 h2
      simp [withAxis]
  · intro r hr'
    obtain ⟨i, hi⟩ := List.getElem?_of_mem hr'
    obtain ⟨s, t, e1, e2, rfl⟩ := split i r hi
    simp [withAxis, ha.dims s (List.mem_of_getElem? e1)]
  · intro r hr' p hp
    obtain ⟨i, hi⟩ := List.getElem?_of_mem hr'
    obtain ⟨s, t, e1, e2, rfl⟩ := split i r hi
    obtain ⟨p0, hp0⟩ := List.length_eq_one_iff.mp (hb.dims t (List.mem_of_getElem? e2))
    rcases List.mem_or_eq_of_mem_set hp with h1 | h1
    · exact ha.degree s (List.mem_of_getElem? e1) p h1
    · rw [h1]
      exact hb.degree t (List.mem_of_getElem? e2) _ (by rw [hp0]; simp)
  · intro i r hi k c hk
    obtain ⟨s, t, e1, e2, rfl⟩ := split i r hi
    have m1 := List.mem_of_getElem? e1
    have m2 := List.mem_of_getElem? e2
    refine ⟨fun v hvi hc => ?_, fun v hvi hc => ?_⟩
    · obtain ⟨v', w1, w2⟩ := vert i k v c hk hvi hc
      exact withAxis_segDeriv n s t (hb.dims t m2) k 0 c ((ha.constraints i s e1 k c hk).1 v hvi hc) ((hb.constraints i t e2 k _ hk).1 v' w1 w2) (nlt s m1)
    · obtain ⟨v', w1, w2⟩ := vert (i + 1) k v c hk hvi hc
      have := (hb.constraints i t e2 k _ hk).2 v' w1 w2
      rw [← htime i s t e1 e2] at this
      exact withAxis_segDeriv n s t (hb.dims t m2) k s.time c ((ha.constraints i s e1 k c hk).2 v hvi hc) this (nlt s m1)
  · intro i r r' hi hi' k hk
    obtain ⟨s, t, e1, e2, rfl⟩ := split i r hi
    obtain ⟨s', t', e1', e2', rfl⟩ := split (i + 1) r' hi'
    have s1 := ha.smooth i s s' e1 e1' k hk
    have s2 := hb.smooth i t t' e2 e2' k hk
    rw [← htime i s t e1 e2] at s2
    obtain ⟨p, hp⟩ := List.length_eq_one_iff.mp (hb.dims t (List.mem_of_getElem? e2))
    obtain ⟨p', hp'⟩ := List.length_eq_one_iff.mp (hb.dims t' (List.mem_of_getElem? e2'))
    unfold segDeriv at s1 s2 ⊢
    rw [hp, hp'] at s2
    simp only [List.map_cons, List.map_nil, List.cons.injEq, and_true] at s2
    simp only [withAxis, List.map_set, hp, hp', List.getD_cons_zero]
    rw [s1, s2]
  · rw [List.forall₂_iff_get]
    refine ⟨hl, fun i h1 h2 => ⟨?_, nlt _ (List.getElem_mem _), hb.dims _ (List.getElem_mem _)⟩⟩
    exact htime i _ _ (List.getElem?_eq_getElem h1) (List.getElem?_eq_getElem h2)

/-- One axis of an optimum is an optimum of that axis. -/
theorem optimal_axis {h dim n : ℕ} {q q' : Problem ℝ} (hr : Reduced h [n] q q') (hn : n < dim)
    {a : List (Segment ℝ)} (ha : Optimal h dim q a) : Optimal h 1 q' (a.map (someAxes [n])) := by
  refine ⟨someAxes_candidate hr (by simpa using hn) ha.1, fun b hb => ?_⟩
  obtain ⟨w1, w2⟩ := withAxis_candidate hr hn ha.1 hb
  have := ha.2 _ w1
  rw [energy_withAxis _ n a b w2] at this
  rw [hr.derivative]
  linarith

/-- The mission of one axis. -/
noncomputable def axisProblem (n : ℕ) (q : Problem ℝ) : Problem ℝ :=
  { q with vertices := q.vertices.map fun v => ⟨1, v.constraints.map fun x => (x.1, entries [n] x.2)⟩ }

theorem axisProblem_reduced (h n : ℕ) (q : Problem ℝ) : Reduced h [n] q (axisProblem n q) := by
  refine ⟨rfl, rfl, by simp [axisProblem], fun i v v' hv hv' k _ => ?_⟩
  simp only [axisProblem, List.getElem?_map, hv, Option.map_some, Option.some.injEq] at hv'
  subst hv'
  unfold Vertex.getConstraint
  simp only
  induction v.constraints with
  | nil => rfl
  | cons x l ih =>
    obtain ⟨j, c⟩ := x
    simp only [List.map_cons, IntMap.find]
    split
    · rfl
    · exact ih

theorem reduced_trans {h : ℕ} {axes : List ℕ} {q q1 q2 : Problem ℝ} (h1 : Reduced h axes q q1) (j : ℕ) (hj : j < axes.length) (h2 : Reduced h [axes[j]] q q2) :
    Reduced h [j] q1 q2 := by
  refine ⟨h2.times.trans h1.times.symm, h2.derivative.trans h1.derivative.symm, h2.length.trans h1.length.symm, fun i v v' hv hv' k hk => ?_⟩
  obtain ⟨hi, _⟩ := List.getElem?_eq_some_iff.mp hv
  have hv0 : q.vertices[i]? = some (q.vertices[i]'(h1.length ▸ hi)) := List.getElem?_eq_getElem _
  rw [h2.get i _ v' hv0 hv' k hk, h1.get i _ v hv0 hv k hk, Option.map_map]
  congr 1
  funext c
  simp [entries, List.getD_eq_getElem?_getD, hj]

/-- Some axes of an optimum are an optimum of those axes. -/
theorem optimal_axes {h dim : ℕ} {axes : List ℕ} {q q' : Problem ℝ} (hr : Reduced h axes q q') (hn : ∀ n ∈ axes, n < dim)
    {a : List (Segment ℝ)} (ha : Optimal h dim q a) : Optimal h axes.length q' (a.map (someAxes axes)) := by
  refine ⟨someAxes_candidate hr hn ha.1, fun b hb => ?_⟩
  rw [← map_someAxes_all axes.length b hb.dims, energy_someAxes, energy_someAxes, hr.derivative]
  have e : axes = (List.range axes.length).map fun j => axes.getD j 0 := by
    apply List.ext_getElem
    · simp
    · intro i h1 h2
      simp [List.getD_eq_getElem?_getD, h1]
  conv_lhs => rw [e]
  rw [List.map_map]
  refine List.sum_le_sum fun j hj => ?_
  have hj' : j < axes.length := List.mem_range.mp hj
  have r1 := axisProblem_reduced h axes[j] q
  have r2 := reduced_trans hr j hj' r1
  have o1 := optimal_axis r1 (hn _ (List.getElem_mem hj')) ha
  have := o1.2 _ (someAxes_candidate r2 (by simpa using hj') hb)
  simp only [Function.comp_apply]
  rw [List.getD_eq_getElem _ _ hj']
  rw [r1.derivative] at this
  exact this

/-! ## The property -/

theorem reduced_of {h : ℕ} {axes : List ℕ} {m : Int} {q q' : Problem ℝ} (hr : ReducedTo axes m q q') (hw : ∀ v ∈ q.vertices, WellFormed v) (hm : (h : Int) ≤ m + 1) :
    Reduced h axes q q' ∧ ∀ v' ∈ q'.vertices, WellFormed v' := by
  obtain ⟨r1, r2, r3⟩ := hr
  rw [List.forall₂_iff_get] at r3
  have one : ∀ v v' : Vertex ℝ, WellFormed v → v.getSubdimension axes m = .ok (true, v') →
      WellFormed v' ∧ ∀ k < h, v'.getConstraint (k : ℕ) = (v.getConstraint (k : ℕ)).map (entries axes) := by
    intro v v' hv he
    obtain ⟨c1, c2⟩ := C20_getSubdimension v hv axes m
    have hax : ∀ d ∈ axes, d < v.D := by
      intro d hd
      by_contra hc
      obtain ⟨w, e⟩ := c1 ⟨d, hd, by omega⟩
      rw [he] at e
      cases e
    obtain ⟨w, e1, _, e3, e4⟩ := c2 hax
    rw [he] at e1
    cases e1
    refine ⟨e3, fun k hk => ?_⟩
    obtain ⟨_, f2, f3⟩ := e4 k
    cases hc : v.getConstraint (k : ℕ) with
    | none => rw [f2 hc]; rfl
    | some c =>
      obtain ⟨r, g1, g2, g3⟩ := f3 c (by omega) hc
      have hcl : c.length = v.D := hv.2 _ ((IntMap.find_some_iff _ hv.1 k c).mp hc)
      rw [g1, Option.map_some]
      congr 1
      apply List.ext_getElem
      · simp [entries, g2]
      · intro i h1 h2
        have hi : i < axes.length := by omega
        have := g3 i axes[i] (List.getElem?_eq_getElem hi)
        have hlt : axes[i] < c.length := by rw [hcl]; exact hax _ (List.getElem_mem hi)
        rw [List.getElem?_eq_getElem h1, List.getElem?_eq_getElem hlt] at this
        simp only [entries, List.getElem_map, List.getD_eq_getElem _ _ hlt]
        exact Option.some.inj this
  refine ⟨⟨r1, r2, r3.1.symm, fun i v v' hv hv' k hk => ?_⟩, fun v' hv' => ?_⟩
  · obtain ⟨hi, rfl⟩ := List.getElem?_eq_some_iff.mp hv
    obtain ⟨hi', rfl⟩ := List.getElem?_eq_some_iff.mp hv'
    exact (one _ _ (hw _ (List.getElem_mem hi)) (r3.2 i hi hi')).2 k hk
  · obtain ⟨i, hi', rfl⟩ := List.mem_iff_getElem.mp hv'
    have hi : i < q.vertices.length := r3.1 ▸ hi'
    exact (one _ _ (hw _ (List.getElem_mem hi)) (r3.2 i hi hi')).1

theorem reduced_dim {axes : List ℕ} {m : Int} {q q' : Problem ℝ} (hr : ReducedTo axes m q q') (hw : ∀ v ∈ q.vertices, WellFormed v) (v' : Vertex ℝ)
    (hv' : v' ∈ q'.vertices) (k : Int) (c : List ℝ) (hc : v'.getConstraint k = some c) : c.length = axes.length := by
  obtain ⟨_, _, r3⟩ := hr
  rw [List.forall₂_iff_get] at r3
  obtain ⟨i, hi', rfl⟩ := List.mem_iff_getElem.mp hv'
  have hi : i < q.vertices.length := r3.1 ▸ hi'
  have he : q.vertices[i].getSubdimension axes m = .ok (true, q'.vertices[i]) := r3.2 i hi hi'
  obtain ⟨c1, c2⟩ := C20_getSubdimension q.vertices[i] (hw _ (List.getElem_mem hi)) axes m
  have hax : ∀ d ∈ axes, d < q.vertices[i].D := by
    intro d hd
    by_contra hc
    obtain ⟨w, e⟩ := c1 ⟨d, hd, by omega⟩
    rw [he] at e
    cases e
  obtain ⟨w, e1, e2, e3, _⟩ := c2 hax
  rw [he] at e1
  cases e1
  rw [← e2]
  exact e3.2 _ ((IntMap.find_some_iff _ e3.1 k c).mp hc)

theorem reduced_prescribed {h d : ℕ} (hd : d ≤ h) {v v' : Vertex ℝ} {axes : List ℕ}
    (hg : ∀ k < h, v'.getConstraint (k : ℕ) = (v.getConstraint (k : ℕ)).map (entries axes)) :
    (NoGaps d v → NoGaps d v') ∧ prescribedBelow d v' = prescribedBelow d v := by
  have e : ∀ k < d, (v'.getConstraint (k : ℕ)).isSome = (v.getConstraint (k : ℕ)).isSome := fun k hk => by rw [hg k (by omega), Option.isSome_map]
  refine ⟨fun hn k k' h1 h2 h3 => ?_, ?_⟩
  · rw [e k (by omega)]
    rw [e k' h2] at h3
    exact hn k k' h1 h2 h3
  · unfold prescribedBelow
    congr 1
    exact List.filter_congr fun k hk => e k (List.mem_range.mp hk)

/-- C172: a mission reduced to some of its axes, solved on its own, gives these axes of the solution of the whole mission, in all cases in which the solution is unique. -/
theorem C172_apart {h dim : ℕ} (hdim : 0 < dim) (axes : List ℕ) (hax : axes ≠ []) (hlt : ∀ n ∈ axes, n < dim) (m : Int) (hm : (h : Int) ≤ m + 1)
    (solve solve2 : LinSolver ℝ) (hs : SolvesSystems solve) (hs2 : SolvesSystems solve2) (q q' : Problem ℝ) (hr : ReducedTo axes m q q')
    (ha : AcceptableProblem h dim q) (hw : ∀ v ∈ q.vertices, WellFormed v) (hg : ∀ v ∈ q.vertices, NoGaps q.derivative.toNat v)
    (hn : q.derivative.toNat ≤ (q.vertices.map (prescribedBelow q.derivative.toNat)).sum) (o o' o2 o2' : LinOpt h ℝ)
    (hh : LinHistory h dim solve (some q) o) (hh2 : LinHistory h axes.length solve2 (some q') o2) (hu : o.solveLinear solve = .ok o')
    (hu2 : o2.solveLinear solve2 = .ok o2') (tr tr2 : Trajectory ℝ) (htr : o'.getTrajectory = .ok tr) (htr2 : o2'.getTrajectory = .ok tr2) :
    SameCurve (tr.segments.map (someAxes axes)) tr2.segments := by
  obtain ⟨r, hw'⟩ := reduced_of hr hw hm
  obtain ⟨a1, _⟩ := cost_solved hdim hs hh hw hu
  obtain ⟨b1, _⟩ := cost_solved (List.length_pos_iff.mpr hax) hs2 hh2 hw' hu2
  rw [setSegments_segments _ _ htr, setSegments_segments _ _ htr2]
  obtain ⟨p1, p2, p3, p4, p5⟩ := ha
  have pair : ∀ i (h1 : i < q'.vertices.length), ∀ k < h, q'.vertices[i].getConstraint (k : ℕ) = ((q.vertices[i]'(r.length ▸ h1)).getConstraint (k : ℕ)).map (entries axes) :=
    fun i h1 => r.get i _ _ (List.getElem?_eq_getElem _) (List.getElem?_eq_getElem h1)
  refine C139_only (q := q') ⟨by rw [r.derivative]; exact p1, by rw [r.derivative]; exact p2, by rw [r.length, r.times]; exact p3, ?_, by rw [r.times]; exact p5⟩ ?_ ?_ _ _
    (optimal_axes r hlt a1) b1
  · intro v' hv' k c hk hc
    rw [reduced_dim hr hw v' hv' k c hc]
  · intro v' hv'
    obtain ⟨i, h1, rfl⟩ := List.mem_iff_getElem.mp hv'
    rw [r.derivative]
    exact (reduced_prescribed (by omega) (pair i h1)).1 (hg _ (List.getElem_mem _))
  · rw [r.derivative]
    refine hn.trans (le_of_eq (congrArg List.sum ?_))
    apply List.ext_getElem
    · simp [r.length]
    · intro i h1 h2
      simp only [List.getElem_map]
      exact (reduced_prescribed (by omega) (pair i (by simpa using h2))).2.symm

/-- C172: the cost of a mission is the sum of the costs of its parts, if each axis belongs to one of two parts solved apart. -/
theorem C172_cost {h dim : ℕ} (hdim : 0 < dim) (axes axes2 : List ℕ) (h1 : axes ≠ []) (h2 : axes2 ≠ []) (hp : (axes ++ axes2).Perm (List.range dim)) (m m2 : Int)
    (hm : (h : Int) ≤ m + 1) (hm2 : (h : Int) ≤ m2 + 1) (solve solve1 solve2 : LinSolver ℝ) (hs : SolvesSystems solve) (hs1 : SolvesSystems solve1)
    (hs2 : SolvesSystems solve2) (q q1 q2 : Problem ℝ) (hr1 : ReducedTo axes m q q1) (hr2 : ReducedTo axes2 m2 q q2) (hw : ∀ v ∈ q.vertices, WellFormed v)
    (o o' o1 o1' o2 o2' : LinOpt h ℝ) (hh : LinHistory h dim solve (some q) o) (hh1 : LinHistory h axes.length solve1 (some q1) o1)
    (hh2 : LinHistory h axes2.length solve2 (some q2) o2) (hu : o.solveLinear solve = .ok o') (hu1 : o1.solveLinear solve1 = .ok o1')
    (hu2 : o2.solveLinear solve2 = .ok o2') :
    ∃ cost cost1 cost2, o'.computeCost = .ok cost ∧ o1'.computeCost = .ok cost1 ∧ o2'.computeCost = .ok cost2 ∧ cost = cost1 + cost2 := by
  obtain ⟨r1, w1⟩ := reduced_of hr1 hw hm
  obtain ⟨r2, w2⟩ := reduced_of hr2 hw hm2
  obtain ⟨a1, a2⟩ := cost_solved hdim hs hh hw hu
  obtain ⟨b1, b2⟩ := cost_solved (List.length_pos_iff.mpr h1) hs1 hh1 w1 hu1
  obtain ⟨c1, c2⟩ := cost_solved (List.length_pos_iff.mpr h2) hs2 hh2 w2 hu2
  have lt : ∀ n ∈ axes ++ axes2, n < dim := fun n hn => List.mem_range.mp (hp.mem_iff.mp hn)
  refine ⟨_, _, _, a2, b2, c2, ?_⟩
  rw [optima_cost b1 (optimal_axes r1 (fun n hn => lt n (List.mem_append_left _ hn)) a1), optima_cost c1 (optimal_axes r2 (fun n hn => lt n (List.mem_append_right _ hn)) a1),
    r1.derivative, r2.derivative]
  conv_lhs => rw [← map_someAxes_all dim o'.segments a1.1.dims]
  rw [energy_someAxes, energy_someAxes _ axes, energy_someAxes _ axes2, ← List.sum_append, ← List.map_append]
  exact ((hp.map _).sum_eq).symm

theorem appendLoop_plain (N : ℕ) (hN : N ≠ 0) (a b : List (Segment ℝ))
    (h : List.Forall₂ (fun s t => s.time = t.time ∧ s.N = N ∧ t.N = N ∧ s.polys ≠ [] ∧ t.polys ≠ []) a b) :
    Trajectory.appendLoop a b = some (List.zipWith (fun s t => (⟨N, s.time, s.polys ++ t.polys⟩ : Segment ℝ)) a b) := by
  induction h with
  | nil => rfl
  | @cons s t a b h _ ih =>
    obtain ⟨h1, h2, h3, h4, h5⟩ := h
    have e : s.getSegmentWithAppendedDimension t = some ⟨N, s.time, s.polys ++ t.polys⟩ := by
      unfold Segment.getSegmentWithAppendedDimension
      rw [if_neg (by simp [Segment.D, h2, hN, h4]), if_neg (by simp [Segment.D, h3, hN, h5])]
      simp [h1, h2, h3]
    simp [Trajectory.appendLoop, e, ih]

/-- C172: the first axes and the others solved apart and put together with `getTrajectoryWithAppendedDimension` are the solution of the whole mission. -/
theorem C172_together {h d1 d2 : ℕ} (h1 : 0 < d1) (h2 : 0 < d2) (m m2 : Int) (hm : (h : Int) ≤ m + 1) (hm2 : (h : Int) ≤ m2 + 1)
    (solve solve1 solve2 : LinSolver ℝ) (hs : SolvesSystems solve) (hs1 : SolvesSystems solve1) (hs2 : SolvesSystems solve2) (q q1 q2 : Problem ℝ)
    (hr1 : ReducedTo (List.range d1) m q q1) (hr2 : ReducedTo ((List.range d2).map (d1 + ·)) m2 q q2)
    (ha : AcceptableProblem h (d1 + d2) q) (hw : ∀ v ∈ q.vertices, WellFormed v) (hg : ∀ v ∈ q.vertices, NoGaps q.derivative.toNat v)
    (hn : q.derivative.toNat ≤ (q.vertices.map (prescribedBelow q.derivative.toNat)).sum) (o o' o1 o1' o2 o2' : LinOpt h ℝ)
    (hh : LinHistory h (d1 + d2) solve (some q) o) (hh1 : LinHistory h d1 solve1 (some q1) o1) (hh2 : LinHistory h d2 solve2 (some q2) o2)
    (hu : o.solveLinear solve = .ok o') (hu1 : o1.solveLinear solve1 = .ok o1') (hu2 : o2.solveLinear solve2 = .ok o2') (tr tr1 tr2 : Trajectory ℝ)
    (htr : o'.getTrajectory = .ok tr) (htr1 : o1'.getTrajectory = .ok tr1) (htr2 : o2'.getTrajectory = .ok tr2) :
    ∃ r, tr1.getTrajectoryWithAppendedDimension tr2 = .ok (some r) ∧ r.D = d1 + d2 ∧ r.maxTime = tr.maxTime ∧ SameCurve tr.segments r.segments := by
  have hd : 0 < d1 + d2 := by omega
  have l1 : (List.range d1).length = d1 := by simp
  have l2 : ((List.range d2).map (d1 + ·)).length = d2 := by simp
  have c1 := C172_apart hd (List.range d1) (by simpa using h1.ne') (by simp; omega) m hm solve solve1 hs hs1 q q1 hr1 ha hw hg hn o o' o1 o1' hh (by rw [l1]; exact hh1) hu hu1 tr tr1 htr htr1
  have c2 := C172_apart hd ((List.range d2).map (d1 + ·)) (by simpa using h2.ne') (by simp) m2 hm2 solve solve2 hs hs2 q q2 hr2 ha hw hg hn o o' o2 o2' hh (by rw [l2]; exact hh2) hu hu2
    tr tr2 htr htr2
  have shape : ∀ {dim : ℕ} {solve : LinSolver ℝ} {q : Problem ℝ} {o o' : LinOpt h ℝ} {tr : Trajectory ℝ}, LinHistory h dim solve (some q) o → o.solveLinear solve = .ok o' →
      o'.getTrajectory = .ok tr → (∀ s ∈ tr.segments, s.polys.length = dim ∧ s.N = h + h) ∧ tr.segments ≠ [] ∧ tr = ⟨dim, h + h, duration tr.segments, tr.segments⟩ := by
    intro dim solve q o o' tr hh hu htr
    have hi := inv_solve dim q solve o o' ((inv_history dim solve _ o hh).2 q rfl) hu
    have e := setSegments_segments _ _ htr
    have sh : ∀ s ∈ o'.segments, s.polys.length = dim ∧ s.N = h + h := fun s hs => ⟨(hi.shape s hs).2.1, (hi.shape s hs).1⟩
    have hne : o'.segments ≠ [] := by
      intro e0
      unfold LinOpt.getTrajectory at htr
      rw [e0] at htr
      cases htr
    have := Verif.IO.setSegments_ok dim (h + h) o'.segments hne sh
    unfold LinOpt.getTrajectory at htr
    rw [this] at htr
    cases htr
    exact ⟨sh, hne, rfl⟩
  obtain ⟨s1, n1, e1⟩ := shape hh1 hu1 htr1
  obtain ⟨s2, n2, e2⟩ := shape hh2 hu2 htr2
  obtain ⟨s0, n0, e0⟩ := shape hh hu htr
  have hN : h + h ≠ 0 := by
    have := ha.1
    have := ha.2.1
    omega
  unfold SameCurve at c1 c2 ⊢
  rw [List.forall₂_iff_get] at c1 c2
  have len1 : tr.segments.length = tr1.segments.length := by simpa using c1.1
  have len2 : tr.segments.length = tr2.segments.length := by simpa using c2.1
  have g1 : ∀ i (a : i < tr.segments.length) (b : i < tr1.segments.length), tr.segments[i].time = tr1.segments[i].time ∧
      List.Forall₂ (fun p p' => ∀ x, derivAt p 0 x = derivAt p' 0 x) ((List.range d1).map fun n => tr.segments[i].polys.getD n []) tr1.segments[i].polys := by
    intro i a b
    simpa [someAxes] using c1.2 i (by simpa using a) b
  have g2 : ∀ i (a : i < tr.segments.length) (b : i < tr2.segments.length), tr.segments[i].time = tr2.segments[i].time ∧
      List.Forall₂ (fun p p' => ∀ x, derivAt p 0 x = derivAt p' 0 x) (((List.range d2).map (d1 + ·)).map fun n => tr.segments[i].polys.getD n []) tr2.segments[i].polys := by
    intro i a b
    have := c2.2 i (by simpa using a) b
    simp only [List.get_eq_getElem, List.getElem_map, someAxes] at this
    exact this
  have hl := appendLoop_plain (h + h) hN tr1.segments tr2.segments (by
    rw [List.forall₂_iff_get]
    refine ⟨len1.symm.trans len2, fun i a b => ?_⟩
    have m1 := s1 _ (List.getElem_mem a)
    have m2 := s2 _ (List.getElem_mem b)
    refine ⟨((g1 i (by omega) a).1.symm).trans (g2 i (by omega) b).1, m1.2, m2.2, ?_, ?_⟩
    · intro e
      have := m1.1
      rw [List.get_eq_getElem] at e
      rw [e] at this
      simp at this
      omega
    · intro e
      have := m2.1
      rw [List.get_eq_getElem] at e
      rw [e] at this
      simp at this
      omega)
  set segs := List.zipWith (fun s t => (⟨h + h, s.time, s.polys ++ t.polys⟩ : Segment ℝ)) tr1.segments tr2.segments with hsegs
  have lens : segs.length = tr.segments.length := by simp [hsegs]; omega
  have hset := Verif.IO.setSegments_ok (d1 + d2) (h + h) segs (by
    intro e
    rw [e] at lens
    exact n0 (List.length_eq_zero_iff.mp lens.symm)) (by
    intro s hs
    obtain ⟨i, hi, rfl⟩ := List.mem_iff_getElem.mp hs
    simp only [hsegs, List.getElem_zipWith, List.length_append, and_true]
    rw [(s1 _ (List.getElem_mem _)).1, (s2 _ (List.getElem_mem _)).1])
  have times : segs.map (·.time) = tr.segments.map (·.time) := by
    apply List.ext_getElem
    · simpa using lens
    · intro i a b
      simp only [hsegs, List.getElem_map, List.getElem_zipWith]
      exact (g1 i (by simpa using b) _).1.symm
  refine ⟨⟨d1 + d2, h + h, duration segs, segs⟩, ?_, rfl, ?_, ?_⟩
  · unfold Trajectory.getTrajectoryWithAppendedDimension
    have t1 : tr1.N = h + h ∧ tr1.D = d1 := by rw [e1]; exact ⟨rfl, rfl⟩
    have t2 : tr2.N = h + h ∧ tr2.D = d2 := by rw [e2]; exact ⟨rfl, rfl⟩
    rw [t1.1, t1.2, t2.1, t2.2, if_neg (by omega), if_neg (by omega), if_neg (by omega), hl]
    simp only [hset, bind, Except.bind, pure, Except.pure]
  · rw [e0]
    simp only [duration, times]
  · rw [List.forall₂_iff_get]
    refine ⟨lens.symm, fun i a b => ?_⟩
    obtain ⟨x1, x2⟩ := g1 i a (by omega)
    obtain ⟨y1, y2⟩ := g2 i a (by omega)
    simp only [List.get_eq_getElem, hsegs, List.getElem_zipWith]
    refine ⟨x1, ?_⟩
    have := List.rel_append x2 y2
    beta_reduce at this
    rw [← List.map_append, ← List.range_add] at this
    have all := someAxes_all (d1 + d2) tr.segments[i] (s0 _ (List.getElem_mem a)).1
    rw [← all]
    exact this

/-- The hypotheses are met: the vertical axis of `realProblem` alone, and the other two. -/
example : ∃ (q1 q2 : Problem ℝ) (o o' o1 o1' o2 o2' : LinOpt 5 ℝ) (tr tr1 tr2 : Trajectory ℝ), ReducedTo [2] 4 realProblem q1 ∧ ReducedTo [0, 1] 4 realProblem q2 ∧
    LinHistory 5 3 exactSolver (some realProblem) o ∧ LinHistory 5 1 exactSolver (some q1) o1 ∧ LinHistory 5 2 exactSolver (some q2) o2 ∧
    o.solveLinear exactSolver = .ok o' ∧ o1.solveLinear exactSolver = .ok o1' ∧ o2.solveLinear exactSolver = .ok o2' ∧
    o'.getTrajectory = .ok tr ∧ o1'.getTrajectory = .ok tr1 ∧ o2'.getTrajectory = .ok tr2 ∧
    SameCurve (tr.segments.map (someAxes [2])) tr1.segments ∧ SameCurve (tr.segments.map (someAxes [0, 1])) tr2.segments ∧
    (∃ r, tr2.getTrajectoryWithAppendedDimension tr1 = .ok (some r) ∧ r.D = 3 ∧ r.maxTime = tr.maxTime ∧ SameCurve tr.segments r.segments) ∧
    ∃ cost cost1 cost2, o'.computeCost = .ok cost ∧ o1'.computeCost = .ok cost1 ∧ o2'.computeCost = .ok cost2 ∧ cost = cost1 + cost2 := by
  have red : ∀ axes : List ℕ, (∀ n ∈ axes, n < 3) → ∃ q', ReducedTo axes 4 realProblem q' := by
    intro axes hax
    have one : ∀ v ∈ realProblem.vertices, ∃ v', v.getSubdimension axes 4 = .ok (true, v') := by
      intro v hv
      obtain ⟨w, h1, _⟩ := (C20_getSubdimension v (realProblem_wellFormed v hv) axes 4).2 (by
        have : v.D = 3 := by
          simp only [realProblem, List.mem_cons, List.not_mem_nil, or_false] at hv
          rcases hv with rfl | rfl | rfl <;> rfl
        rw [this]
        exact hax)
      exact ⟨w, h1⟩
    have all : ∀ l : List (Vertex ℝ), (∀ v ∈ l, ∃ v', v.getSubdimension axes 4 = .ok (true, v')) →
        ∃ l', List.Forall₂ (fun v v' => v.getSubdimension axes 4 = .ok (true, v')) l l' := by
      intro l
      induction l with
      | nil => exact fun _ => ⟨[], .nil⟩
      | cons v l ih =>
        intro h
        obtain ⟨v', e⟩ := h v (by simp)
        obtain ⟨l', e'⟩ := ih fun w hw => h w (by simp [hw])
        exact ⟨v' :: l', .cons e e'⟩
    obtain ⟨l', e⟩ := all _ one
    exact ⟨⟨l', realProblem.times, realProblem.derivative⟩, rfl, rfl, e⟩
  have acc : ∀ (axes : List ℕ) (q' : Problem ℝ), ReducedTo axes 4 realProblem q' → AcceptableProblem 5 axes.length q' := by
    intro axes q' hr
    obtain ⟨p1, p2, p3, _, p5⟩ := realProblem_acceptable
    refine ⟨by rw [hr.2.1]; exact p1, by rw [hr.2.1]; exact p2, by rw [← hr.2.2.length_eq, hr.1]; exact p3, fun v hv k c _ hc => ?_, by rw [hr.1]; exact p5⟩
    exact reduced_dim hr realProblem_wellFormed v hv k c hc
  obtain ⟨q1, r1⟩ := red [2] (by simp)
  obtain ⟨q2, r2⟩ := red [0, 1] (by simp)
  obtain ⟨o, o', tr, h1, h2, h3⟩ := C28_solves (solve := exactSolver) realProblem (by omega) realProblem_wellFormed realProblem_acceptable (by simp [realProblem])
  obtain ⟨o1, o1', tr1, g1, g2, g3⟩ := C28_solves (solve := exactSolver) q1 (by omega) (reduced_of (h := 5) r1 realProblem_wellFormed (by norm_num)).2 (acc [2] q1 r1)
    (by rw [r1.1]; simp [realProblem])
  obtain ⟨o2, o2', tr2, f1, f2, f3⟩ := C28_solves (solve := exactSolver) q2 (by omega) (reduced_of (h := 5) r2 realProblem_wellFormed (by norm_num)).2 (acc [0, 1] q2 r2)
    (by rw [r2.1]; simp [realProblem])
  have hg : ∀ v ∈ realProblem.vertices, NoGaps realProblem.derivative.toNat v := realProblem_enough.1
  have hn : realProblem.derivative.toNat ≤ (realProblem.vertices.map (prescribedBelow realProblem.derivative.toNat)).sum :=
    le_trans (show (4 : ℕ) ≤ 5 by norm_num) (le_of_eq realProblem_enough.2.symm)
  exact ⟨q1, q2, o, o', o1, o1', o2, o2', tr, tr1, tr2, r1, r2, h1, g1, f1, h2, g2, f2, h3, g3, f3,
    C172_apart (by omega) [2] (by simp) (by simp) 4 (by norm_num) _ _ exactSolver_solves exactSolver_solves _ _ r1 realProblem_acceptable realProblem_wellFormed hg hn _ _ _ _
      h1 g1 h2 g2 _ _ h3 g3,
    C172_apart (by omega) [0, 1] (by simp) (by simp) 4 (by norm_num) _ _ exactSolver_solves exactSolver_solves _ _ r2 realProblem_acceptable realProblem_wellFormed hg hn _ _ _ _
      h1 f1 h2 f2 _ _ h3 f3,
    C172_together (d1 := 2) (d2 := 1) (by omega) (by omega) 4 4 (by norm_num) (by norm_num) _ _ _ exactSolver_solves exactSolver_solves exactSolver_solves _ _ _ r2 r1
      realProblem_acceptable realProblem_wellFormed hg hn _ _ _ _ _ _ h1 f1 g1 h2 f2 g2 _ _ _ h3 f3 g3,
    C172_cost (by omega) [2] [0, 1] (by simp) (by simp) (by decide) 4 4 (by norm_num) (by norm_num) _ _ _ exactSolver_solves exactSolver_solves exactSolver_solves _ _ _ r1 r2
      realProblem_wellFormed _ _ _ _ _ _ h1 g1 f1 h2 g2 f2⟩

end Verif.Properties
