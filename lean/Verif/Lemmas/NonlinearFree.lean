import Mathlib.Data.List.Sort
import Mathlib.Data.List.GetD
import Verif.Lemmas.NonlinearTotal

/-!
# The free derivatives: their order in the vector and their bounds
-/

set_option linter.unusedSectionVars false

namespace Verif

open Spec Lemmas Properties

namespace LinOpt
variable {h dim : ℕ} {solve : LinSolver ℝ}

theorem mem_freeOrders (vs : List (Vertex ℝ)) (i k : ℕ) :
    (i, k) ∈ freeOrders h vs ↔ ∃ v, vs[i]? = some v ∧ k < h ∧ v.getConstraint k = none := by
  unfold freeOrders
  simp only [List.mem_flatMap, List.mem_map, List.mem_filter, List.mem_range, Prod.mk.injEq, Prod.exists, List.mem_zipIdx_iff_getElem?,
    Option.isNone_iff_eq_none]
  constructor
  · rintro ⟨v, j, hv, k', ⟨hk, hc⟩, rfl, rfl⟩
    exact ⟨v, hv, hk, hc⟩
  · rintro ⟨v, hv, hk, hc⟩
    exact ⟨v, i, hv, k, ⟨hk, hc⟩, rfl, rfl⟩

theorem freeOrders_sorted (vs : List (Vertex ℝ)) : (freeOrders h vs).Pairwise fun a b => toLex a < toLex b := by
  unfold freeOrders
  rw [List.pairwise_flatMap]
  constructor
  · rintro ⟨v, i⟩ _
    rw [List.pairwise_map]
    refine (List.Pairwise.filter _ List.pairwise_lt_range).imp ?_
    intro a b hab
    rw [Prod.Lex.toLex_lt_toLex]
    exact .inr ⟨rfl, hab⟩
  · have hz : vs.zipIdx.Pairwise fun a b => a.2 < b.2 := by
      have : (vs.zipIdx.map Prod.snd).Pairwise (· < ·) := by
        rw [List.zipIdx_map_snd]
        exact List.pairwise_lt_range'
      exact List.pairwise_map.mp this
    refine hz.imp ?_
    rintro ⟨v, i⟩ ⟨w, j⟩ hij x hx y hy
    simp only [List.mem_map] at hx hy
    obtain ⟨k, _, rfl⟩ := hx
    obtain ⟨k', _, rfl⟩ := hy
    rw [Prod.Lex.toLex_lt_toLex]
    exact .inl hij

/-- The free constraints are, in order, the free derivatives by vertex, then by order. -/
theorem free_keys (n : ℕ) (vs : List (Vertex ℝ)) :
    ((constraintSets (constraintSeq h dim n vs)).2.map fun c => (c.vertexIdx, c.constraintIdx)) = freeOrders h vs := by
  have hsort : (((constraintSets (constraintSeq h dim n vs)).2.map fun c => (c.vertexIdx, c.constraintIdx)).Pairwise
      fun a b => toLex a < toLex b) := by
    rw [List.pairwise_map]
    exact (constraintSets_spec _).2.1
  have hmem : ∀ x : ℕ × ℕ, x ∈ ((constraintSets (constraintSeq h dim n vs)).2.map fun c => (c.vertexIdx, c.constraintIdx)) ↔
      x ∈ freeOrders h vs := by
    rintro ⟨i, k⟩
    rw [mem_freeOrders, List.mem_map]
    constructor
    · rintro ⟨c, hc, e⟩
      obtain ⟨v, hv, hk, hn, _⟩ := (mem_free dim n vs c).mp hc
      obtain ⟨e1, e2⟩ := Prod.mk.inj e
      rw [← e1, ← e2]
      exact ⟨v, hv, hk, hn⟩
    · rintro ⟨v, hv, hk, hn⟩
      exact ⟨⟨i, k, List.replicate dim 0⟩, (mem_free dim n vs _).mpr ⟨v, hv, hk, hn, rfl⟩, rfl⟩
  have hnd : ∀ l : List (ℕ × ℕ), (l.Pairwise fun a b => toLex a < toLex b) → l.Nodup := by
    intro l hl
    refine hl.imp ?_
    intro a b hab e
    rw [e] at hab
    exact lt_irrefl _ hab
  refine List.Perm.eq_of_pairwise ?_ hsort (freeOrders_sorted vs)
    ((List.perm_ext_iff_of_nodup (hnd _ hsort) (hnd _ (freeOrders_sorted vs))).mpr hmem)
  intro a b _ _ h1 h2
  exact absurd h1 (lt_asymm h2)

theorem freeOrders_filter (vs vs' : List (Vertex ℝ)) (hw : ∀ v ∈ vs, WellFormed v) (hv : vs.mapM (filterVertex h dim) = .ok vs') :
    freeOrders h vs' = freeOrders h vs := by
  have hF := mapM_forall2 _ _ _ hv
  unfold freeOrders
  have key : ∀ (vs vs' : List (Vertex ℝ)) (n : ℕ), (∀ v ∈ vs, WellFormed v) → List.Forall₂ (fun a b => filterVertex h dim a = .ok b) vs vs' →
      ((vs'.zipIdx n).flatMap fun (v, i) => ((List.range h).filter fun k : ℕ => (v.getConstraint k).isNone).map fun k => (i, k)) =
      ((vs.zipIdx n).flatMap fun (v, i) => ((List.range h).filter fun k : ℕ => (v.getConstraint k).isNone).map fun k => (i, k)) := by
    intro vs vs' n hw hF
    induction hF generalizing n with
    | nil => rfl
    | @cons a b vs vs' hab _ ih =>
      rw [List.zipIdx_cons, List.zipIdx_cons, List.flatMap_cons, List.flatMap_cons, ih (n + 1) fun v hv => hw v (by simp [hv])]
      congr 1
      simp only
      congr 1
      apply List.filter_congr
      intro k hk
      rw [(filterVertex_spec dim a b (hw a (by simp)) hab k (List.mem_range.mp hk)).1]
  exact key vs vs' 0 hw hF

theorem nFree_eq {q : Problem ℝ} {o : LinOpt h ℝ} (hi : Inv dim q o) (hw : ∀ v ∈ q.vertices, WellFormed v) :
    o.nFree = (freeOrders h q.vertices).length := by
  rw [hi.nFree, ← freeOrders_filter q.vertices o.vertices hw hi.vertices, ← free_keys (dim := dim) q.times.length, List.length_map]

/-- At a free derivative the vertex value is the free value. -/
theorem vertexValue_free {q : Problem ℝ} {o : LinOpt h ℝ} (hi : Inv dim q o) (hw : ∀ v ∈ q.vertices, WellFormed v) (d : ℕ) (hd : d < dim)
    (hlen : (o.fixedCompact.getD d []).length + (o.freeCompact.getD d []).length = o.nFixed + o.nFree)
    (m i k : ℕ) (hm : (freeOrders h q.vertices)[m]? = some (i, k)) :
    vertexValue dim q o d i k = (o.freeCompact.getD d []).getD m 0 := by
  rw [← freeOrders_filter q.vertices o.vertices hw hi.vertices, ← free_keys (dim := dim) q.times.length, List.getElem?_map] at hm
  cases hc : (constraintSets (constraintSeq h dim q.times.length o.vertices)).2[m]? with
  | none => rw [hc] at hm; cases hm
  | some c =>
    rw [hc] at hm
    obtain ⟨e1, e2⟩ := Prod.mk.inj (Option.some.inj hm)
    obtain ⟨_, hfl, _⟩ := hi.fixed_length d hd
    unfold vertexValue
    rw [dot_reorderRow (cols h dim q.times.length o.vertices) ⟨i, k, []⟩ _ (cols_nodup dim _ _) (o.nFixed + m) c
      (by unfold cols; rw [hi.nFixed, List.getElem?_append_right (by omega), Nat.add_sub_cancel_left, hc])
      (by unfold Constraint.key; rw [e1, e2])
      (by rw [List.length_append, hlen, hi.nFixed, hi.nFree, cols, List.length_append])]
    rw [List.getD_append_right _ _ _ _ (by omega), hfl, Nat.add_sub_cancel_left]

/-- The derivatives at the vertices of a trajectory just solved for or given. -/
theorem solved_vertexValue {q : Problem ℝ} {o o' : LinOpt h ℝ} (hh : LinHistory h dim solve (some q) o)
    (hu : (∃ values, o.setFreeConstraints values = .ok o') ∨ o.solveLinear solve = .ok o') (d : ℕ) (hd : d < dim) (i k : ℕ) (hk : k < h) :
    AtVertex o'.segments i k d (vertexValue dim q { o with freeCompact := o'.freeCompact } d i k) := by
  have hi := (inv_history dim solve _ o hh).2 q rfl
  obtain ⟨free, hi1, e, hl, hlen, hs⟩ := solved_spec dim q solve o o' hi hu
  rw [e]
  constructor
  · intro s hsi
    obtain ⟨hshape, ht, hp⟩ := hs i s hsi
    have := (polyOf_deriv dim q _ hi1 i _ (ht (by omega)) d k hk).1
    unfold segDeriv
    rw [hp, List.getElem?_map, List.getElem?_map, List.getElem?_range hd]
    simp only [Option.map_some]
    rw [this]
  · intro j s hj hsi
    obtain ⟨hshape, ht, hp⟩ := hs j s hsi
    have := (polyOf_deriv dim q _ hi1 j _ (ht (by omega)) d k hk).2
    unfold segDeriv
    rw [hp, List.getElem?_map, List.getElem?_map, List.getElem?_range hd]
    simp only [Option.map_some]
    rw [this, hj]

end LinOpt

namespace NonLin
open LinOpt
variable {h dim : ℕ} {rf : Poly.RootFinder ℝ} {solve : LinSolver ℝ}

theorem decodeFree_getD (n m d i : ℕ) (x : List ℝ) (hi : i < m) (y : ℝ) (hy : x[n + d * m + i]? = some y) :
    (decodeFree n m x d).getD i 0 = y := by
  unfold decodeFree
  rw [List.getD_eq_getElem?_getD, List.getElem?_take_of_lt hi, List.getElem?_drop, hy]
  rfl

/-- Concatenating lists of equal length and cutting again. -/
theorem decodeFree_flatten (ts : List ℝ) (l : List (List ℝ)) (m d : ℕ) (hl : ∀ v ∈ l, v.length = m) (v : List ℝ) (hv : l[d]? = some v) :
    decodeFree ts.length m (ts ++ l.flatten) d = v := by
  unfold decodeFree
  rw [← List.drop_drop, List.drop_left]
  induction l generalizing d with
  | nil => simp at hv
  | cons a l ih =>
    cases d with
    | zero =>
      simp at hv
      rw [hv] at hl
      simp only [zero_mul, List.drop_zero, List.flatten_cons, hv]
      rw [← hl v (by simp)]
      exact List.take_left
    | succ d =>
      have ha := hl a (by simp)
      rw [List.flatten_cons, show (d + 1) * m = a.length + d * m by rw [ha]; ring, ← List.drop_drop, List.drop_left]
      exact ih d (fun v hv => hl v (by simp [hv])) (by simpa using hv)

theorem flatten_length (l : List (List ℝ)) (m : ℕ) (hl : ∀ v ∈ l, v.length = m) : l.flatten.length = l.length * m := by
  induction l with
  | nil => simp
  | cons a l ih =>
    rw [List.flatten_cons, List.length_append, hl a (by simp), ih fun v hv => hl v (by simp [hv]), List.length_cons]
    ring

/-! ## Bounds -/

/-- Lower bound at most upper bound. -/
def Ordered (b : Option ℝ × Option ℝ) : Prop := ∀ l u, b.1 = some l → b.2 = some u → l ≤ u

theorem widen_spec (x : ℝ) (b : Option ℝ × Option ℝ) (hb : Ordered b) :
    (∀ l, (widen x b).1 = some l → l ≤ x) ∧ (∀ u, (widen x b).2 = some u → x ≤ u) := by
  obtain ⟨l, u⟩ := b
  cases l with
  | none =>
    cases u with
    | none => exact ⟨fun _ h => (by cases h), fun _ h => (by cases h)⟩
    | some u =>
      unfold widen
      simp only
      split
      · exact ⟨fun _ h => (by cases h), fun v h => (by rw [← Option.some.inj h])⟩
      · rename_i hu
        exact ⟨fun _ h => (by cases h), fun v h => (by rw [← Option.some.inj h]; exact not_lt.mp hu)⟩
  | some l =>
    unfold widen
    simp only
    split
    · rename_i hx
      refine ⟨fun v h => (by rw [← Option.some.inj h]), fun v h => ?_⟩
      have := hb l v rfl h
      linarith
    · rename_i hx
      cases u with
      | none => exact ⟨fun v h => (by rw [← Option.some.inj h]; exact not_lt.mp hx), fun _ h => (by cases h)⟩
      | some u =>
        simp only
        split
        · exact ⟨fun v h => (by rw [← Option.some.inj h]; exact not_lt.mp hx), fun v h => (by rw [← Option.some.inj h])⟩
        · rename_i hu
          exact ⟨fun v h => (by rw [← Option.some.inj h]; exact not_lt.mp hx), fun v h => (by rw [← Option.some.inj h]; exact not_lt.mp hu)⟩

theorem widen_time (x l : ℝ) : widen x (some l, none) = (some (min l x), none) := by
  unfold widen
  simp only
  split
  · rename_i hx; rw [min_eq_right hx.le]
  · rename_i hx; rw [min_eq_left (not_lt.mp hx)]

theorem setBound_spec (value : ℝ) (bs : List (Option ℝ × Option ℝ)) (i : ℕ) (hi : i < bs.length) :
    ∃ bs', setBound value bs i = .ok bs' ∧ bs'.length = bs.length ∧ ((∀ b ∈ bs, Ordered b) → ∀ b ∈ bs', Ordered b) := by
  unfold setBound
  rw [if_pos hi]
  refine ⟨_, rfl, by simp, fun hb b hm => ?_⟩
  rcases List.mem_or_eq_of_mem_set hm with hm | e
  · exact hb b hm
  · rw [e]
    intro l u hl hu
    rw [← Option.some.inj hl, ← Option.some.inj hu]
    have := abs_nonneg value
    linarith

/-- A loop of steps that keep length and order of the bounds. -/
theorem foldlM_bounds {α : Type} (f : List (Option ℝ × Option ℝ) → α → Res (List (Option ℝ × Option ℝ))) (l : List α) (n : ℕ)
    (hf : ∀ bs, ∀ a ∈ l, bs.length = n → (∀ b ∈ bs, Ordered b) → ∃ bs', f bs a = .ok bs' ∧ bs'.length = n ∧ ∀ b ∈ bs', Ordered b)
    (bs : List (Option ℝ × Option ℝ)) (hn : bs.length = n) (ho : ∀ b ∈ bs, Ordered b) :
    ∃ bs', l.foldlM f bs = .ok bs' ∧ bs'.length = n ∧ ∀ b ∈ bs', Ordered b := by
  induction l generalizing bs with
  | nil => exact ⟨bs, rfl, hn, ho⟩
  | cons a l ih =>
    obtain ⟨b1, h1, h2, h3⟩ := hf bs a (by simp) hn ho
    rw [List.foldlM_cons, h1]
    exact ih (fun bs a ha => hf bs a (by simp [ha])) b1 h2 h3

theorem countedOrders_length (vs : List (Vertex ℝ)) (derivative : Int) (hd : derivative ≤ (h : Int) - 1) :
    (countedOrders vs derivative).length ≤ (freeOrders h vs).length := by
  unfold countedOrders freeOrders
  have key : ∀ n, (vs.flatMap fun v => (List.range (derivative + 1).toNat).filter fun k : ℕ => !v.hasConstraint k).length ≤
      ((vs.zipIdx n).flatMap fun (v, i) => ((List.range h).filter fun k : ℕ => (v.getConstraint k).isNone).map fun k => (i, k)).length := by
    induction vs with
    | nil => simp
    | cons v vs ih =>
      intro n
      rw [List.zipIdx_cons, List.flatMap_cons, List.flatMap_cons, List.length_append, List.length_append, List.length_map]
      refine Nat.add_le_add ?_ (ih (n + 1))
      have hsub : List.Sublist (List.range (derivative + 1).toNat) (List.range h) := by
        rw [List.range_sublist]; omega
      have := (hsub.filter fun k : ℕ => !v.hasConstraint k).length_le
      refine this.trans (le_of_eq ?_)
      congr 1
      apply List.filter_congr
      intro k _
      unfold Vertex.hasConstraint Vertex.getConstraint
      cases IntMap.find (k : Int) v.constraints <;> rfl
  exact key 0

theorem hardBounds_total {q : Problem ℝ} (o : NonLin h) (hi : Inv dim q o.poly) :
    ∃ bs, setFreeEndpointDerivativeHardConstraints o = .ok bs ∧ bs.length = dim * o.poly.nFree ∧ ∀ b ∈ bs, Ordered b := by
  have hcount : (countedOrders o.poly.vertices o.poly.derivative).length ≤ o.poly.nFree := by
    refine (countedOrders_length (h := h) o.poly.vertices o.poly.derivative (by rw [hi.derivative]; exact hi.range.2)).trans ?_
    rw [hi.nFree, ← free_keys (dim := dim) q.times.length, List.length_map]
  unfold setFreeEndpointDerivativeHardConstraints
  refine foldlM_bounds _ _ (dim * o.poly.nFree) ?_ _ (by simp [hi.dimension]) ?_
  · intro bs c _ hl ho
    unfold boundsOfConstraint
    refine foldlM_bounds _ _ _ ?_ bs hl ho
    rintro bs ⟨k, counter⟩ hm hl ho
    have hlt : counter < (countedOrders o.poly.vertices o.poly.derivative).length :=
      (List.getElem?_eq_some_iff.mp (List.mem_zipIdx_iff_getElem?.mp hm)).1
    simp only
    split
    · refine foldlM_bounds _ _ _ ?_ bs hl ho
      intro bs d hd hl ho
      rw [List.mem_range, hi.dimension] at hd
      have : d * o.poly.nFree + counter < bs.length := by
        rw [hl]
        calc d * o.poly.nFree + counter < d * o.poly.nFree + o.poly.nFree := by omega
          _ = (d + 1) * o.poly.nFree := by ring
          _ ≤ dim * o.poly.nFree := Nat.mul_le_mul_right _ (by omega)
      obtain ⟨bs', h1, h2, h3⟩ := setBound_spec c.value bs _ this
      exact ⟨bs', h1, h2.trans hl, h3 ho⟩
    · exact ⟨bs, rfl, hl, ho⟩
  · intro b hb
    rw [List.mem_replicate] at hb
    rw [hb.2]
    intro l u hl
    cases hl

/-- The problem handed to NLopt after the linear solution: it exists, its starting point is the linear solution and lies within the bounds, and
times within the bounds are at least the smaller of 0.1 and the starting time. -/
theorem fullProblem_spec {q : Problem ℝ} {p0 : LinOpt h ℝ} (o : NonLin h) (hdim : 0 < dim) (hq : q.times ≠ [])
    (hh : LinHistory h dim solve (some q) p0) (hs : p0.solveLinear solve = .ok o.poly) :
    ∃ p, fullProblem o = .ok p ∧ p.x0 = q.times ++ o.poly.freeCompact.flatten ∧ p.x0.length = q.times.length + o.poly.nFree * dim ∧
      WithinBounds p p.x0 ∧
      ∀ x, WithinBounds p x → x.length = p.x0.length ∧
        List.Forall₂ (fun t0 t => min (1 / 10) t0 ≤ t) q.times (x.take q.times.length) := by
  have hi := (inv_history dim solve _ _ (.solve hh hs)).2 q rfl
  obtain ⟨hfl, hfv, _⟩ := solved_free hh (.inr hs)
  obtain ⟨f, fs, hf⟩ : ∃ f fs, o.poly.freeCompact = f :: fs := List.exists_cons_of_length_pos (by omega)
  have hfn : f.length = o.poly.nFree := hfv f (by rw [hf]; simp)
  have hflat : o.poly.freeCompact.flatten.length = dim * o.poly.nFree := by rw [flatten_length _ _ hfv, hfl]
  obtain ⟨bs, hb, hbl, hbo⟩ := hardBounds_total o hi
  have hx0 : (o.poly.times ++ o.poly.freeCompact.flatten).length = q.times.length + dim * o.poly.nFree := by
    rw [List.length_append, hflat, hi.times]
  have hpos : 0 < q.times.length := List.length_pos_iff.mpr hq
  have hfp : fullProblem o = .ok
      ⟨(List.zipWith widen (q.times ++ o.poly.freeCompact.flatten) (q.times.map (fun _ => (some kOptimizationTimeLowerBound, none)) ++ bs)).map (·.1),
        (List.zipWith widen (q.times ++ o.poly.freeCompact.flatten) (q.times.map (fun _ => (some kOptimizationTimeLowerBound, none)) ++ bs)).map (·.2),
        q.times ++ o.poly.freeCompact.flatten,
        (q.times ++ o.poly.freeCompact.flatten).map (initialStep o.params.initialStepRel)⟩ := by
    unfold fullProblem
    rw [hf]
    simp only
    rw [← hf, hfl, hfn, if_neg (by rw [hi.times]; omega)]
    simp only [bind, Except.bind]
    rw [hb]
    simp only
    rw [if_neg (by rw [hx0, List.length_append, List.length_map, hbl, hi.times]; omega),
      if_neg (by rw [hx0, List.length_append, List.length_map, hbl, hi.times, mul_comm]; omega), hi.times]
    rfl
  rw [hi.times] at hx0
  refine ⟨_, hfp, rfl, by simp only; rw [hx0, mul_comm], ⟨rfl, ?_⟩, ?_⟩
  · intro i v hv
    simp only [List.getElem?_map, List.getElem?_zipWith, hv]
    generalize hbi : (q.times.map (fun _ => ((some kOptimizationTimeLowerBound, none) : Option ℝ × Option ℝ)) ++ bs)[i]? = b
    cases b with
    | none => exact ⟨fun _ hl => (by cases hl), fun _ hl => (by cases hl)⟩
    | some b =>
      have hbo' : Ordered b := by
        have hm := List.mem_of_getElem? hbi
        rw [List.mem_append, List.mem_map] at hm
        rcases hm with ⟨_, _, e⟩ | hm
        · rw [← e]; intro l u _ hu; cases hu
        · exact hbo b hm
      simp only [Option.map_some, Option.some.injEq]
      exact widen_spec v b hbo'
  · rintro x ⟨hxl, hxb⟩
    refine ⟨hxl, ?_⟩
    simp only at hxl
    rw [List.forall₂_iff_get]
    refine ⟨by rw [List.length_take, hxl, hx0]; omega, ?_⟩
    intro i hi1 hi2
    simp only [List.get_eq_getElem, List.getElem_take]
    have hix : i < x.length := by rw [hxl, hx0]; omega
    refine (hxb i _ (List.getElem?_eq_getElem hix)).1 _ ?_
    simp only [List.getElem?_map, List.getElem?_zipWith]
    rw [List.getElem?_append_left hi1, List.getElem?_append_left (by simpa using hi1), List.getElem?_map, List.getElem?_eq_getElem hi1]
    simp only [Option.map_some, widen_time]
    rfl

/-- The problem, when there is one. -/
theorem fullProblem_ok (o : NonLin h) (p : NloptProblem) (hp : fullProblem o = .ok p) :
    ∃ bs, setFreeEndpointDerivativeHardConstraints o = .ok bs ∧ p.x0 = o.poly.times ++ o.poly.freeCompact.flatten ∧
      p.x0.length = o.poly.times.length + bs.length ∧
      p.lower = (List.zipWith widen p.x0 (o.poly.times.map (fun _ => (some kOptimizationTimeLowerBound, none)) ++ bs)).map (·.1) ∧
      p.upper = (List.zipWith widen p.x0 (o.poly.times.map (fun _ => (some kOptimizationTimeLowerBound, none)) ++ bs)).map (·.2) ∧
      p.step = p.x0.map (initialStep o.params.initialStepRel) := by
  unfold fullProblem at hp
  split at hp
  · cases hp
  simp only at hp
  split at hp
  · cases hp
  obtain ⟨bs, h1, h2⟩ := bind_eq_ok hp
  split at h2
  · cases h2
  split at h2
  · cases h2
  rename_i h3
  have e := Except.ok.inj h2
  rw [not_or, not_not] at h3
  refine ⟨bs, h1, ?_⟩
  rw [← e]
  refine ⟨rfl, ?_, rfl, rfl, rfl⟩
  simp only
  rw [h3.1]
  simp

theorem fullProblem_lengths (o : NonLin h) (p : NloptProblem) (hp : fullProblem o = .ok p) :
    p.lower.length = p.x0.length ∧ p.upper.length = p.x0.length ∧ p.step.length = p.x0.length := by
  obtain ⟨bs, _, _, h2, h3, h4, h5⟩ := fullProblem_ok o p hp
  rw [h3, h4, h5]
  simp only [List.length_map, List.length_zipWith, List.length_append, h2, min_self, and_self]

end NonLin

end Verif
