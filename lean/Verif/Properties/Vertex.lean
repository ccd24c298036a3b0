import Mathlib.Tactic.NormNum
import Verif.Lemmas.Vertex
import Verif.Properties.Trajectory

set_option linter.unusedSectionVars false

/-!
# Properties C18–C20: vertices
-/

namespace Verif.Properties

open Spec

variable {K : Type*} [Field K] [LinearOrder K] [IsStrictOrderedRing K]

/-! ## C19: the constraint store is a finite map -/

/-- The mutating operations of a vertex. -/
inductive VertexOp (K : Type*) where
  | add (k : Int) (c : List K)
  | addConst (k : Int) (x : K)
  | remove (k : Int)
  | startOrEnd (c : List K) (upTo : Int)
  | startOrEndConst (x : K) (upTo : Int)

/-- Run one operation of the model. -/
def VertexOp.run (v : Vertex K) : VertexOp K → Res (Vertex K)
  | .add k c => v.addConstraint k c
  | .addConst k x => .ok (v.addConstraintConst k x)
  | .remove k => .ok (v.removeConstraint k).2
  | .startOrEnd c n => v.makeStartOrEnd c n
  | .startOrEndConst x n => v.makeStartOrEndConst x n

/-- What the operation means for the map from orders to vectors. -/
def VertexOp.spec (D : ℕ) (m : Int → Option (List K)) : VertexOp K → (Int → Option (List K))
  | .add k c => fun j => if j = k then some c else m j
  | .addConst k x => fun j => if j = k then some (List.replicate D x) else m j
  | .remove k => fun j => if j = k then none else m j
  | .startOrEnd c n => fun j => if j = 0 then some c else if 1 ≤ j ∧ j ≤ n then some (List.replicate D 0) else m j
  | .startOrEndConst x n => fun j =>
      if j = 0 then some (List.replicate D x) else if 1 ≤ j ∧ j ≤ n then some (List.replicate D 0) else m j

/-- The vectors passed have the dimension of the vertex. -/
def VertexOp.fits (D : ℕ) : VertexOp K → Prop
  | .add _ c => c.length = D
  | .startOrEnd c _ => c.length = D
  | _ => True

theorem vertexOp_step (op : VertexOp K) (v : Vertex K) (hw : WellFormed v) :
    (op.fits v.D → ∃ w, op.run v = .ok w ∧ w.D = v.D ∧ WellFormed w ∧ w.getConstraint = op.spec v.D v.getConstraint) ∧
    (¬ op.fits v.D → op.run v = .error .check) := by
  cases op with
  | add k c =>
    constructor
    · intro h
      obtain ⟨w, h1, h2, h3, h4⟩ := addConstraint_ok v k c hw h
      exact ⟨w, h1, h2, h3, funext h4⟩
    · intro h; simp only [VertexOp.run, Vertex.addConstraint]; exact if_neg h
  | addConst k x =>
    constructor
    · intro _
      obtain ⟨w, h1, h2, h3, h4⟩ := addConstraint_ok v k (List.replicate v.D x) hw (by simp)
      unfold Vertex.addConstraint at h1
      rw [if_pos (by simp)] at h1
      refine ⟨w, ?_, h2, h3, funext h4⟩
      rw [← Except.ok.inj h1]; rfl
    · intro h; exact absurd trivial h
  | remove k =>
    constructor
    · intro _
      obtain ⟨_, h2, h3, h4⟩ := removeConstraint_spec v k hw
      exact ⟨_, rfl, h2, h3, funext h4⟩
    · intro h; exact absurd trivial h
  | startOrEnd c n =>
    constructor
    · intro h
      obtain ⟨w, h1, h2, h3, h4⟩ := makeStartOrEnd_ok v c n hw h
      exact ⟨w, h1, h2, h3, funext h4⟩
    · intro h
      have h' : ¬ c.length = v.D := h
      simp only [VertexOp.run, Vertex.makeStartOrEnd, Vertex.addConstraint]; rw [if_neg h']; rfl
  | startOrEndConst x n =>
    constructor
    · intro _
      obtain ⟨w, h1, h2, h3, h4⟩ := makeStartOrEnd_ok v (List.replicate v.D x) n hw (by simp)
      exact ⟨w, h1, h2, h3, funext h4⟩
    · intro h; exact absurd trivial h

/-- C19: after every sequence of operations with vectors of the right dimension, starting from a new vertex, the store holds exactly
the finite map of the last written and not removed values; keys are iterated in increasing order; has/get agree with the map and the
number of constraints is the number of mapped orders. -/
theorem C19_store_is_map (D : ℕ) (ops : List (VertexOp K)) (hfit : ∀ op ∈ ops, op.fits D) :
    ∃ v, ops.foldlM VertexOp.run (Vertex.mk' D) = .ok v ∧ v.D = D ∧ WellFormed v ∧
      Represents v (ops.foldl (VertexOp.spec D) (fun _ => none)) ∧
      (∀ k, v.getConstraint k = ops.foldl (VertexOp.spec D) (fun _ => none) k) ∧
      (∀ k, v.hasConstraint k = (ops.foldl (VertexOp.spec D) (fun _ => none) k).isSome) ∧
      v.getNumberOfConstraints = (v.constraints.map (·.1)).length ∧ (v.constraints.map (·.1)).Nodup ∧
      (∀ k, k ∈ v.constraints.map (·.1) ↔ (ops.foldl (VertexOp.spec D) (fun _ => none) k).isSome) := by
  have key : ∀ (ops : List (VertexOp K)) (v : Vertex K), (∀ op ∈ ops, op.fits v.D) → WellFormed v →
      ∃ w, ops.foldlM VertexOp.run v = .ok w ∧ w.D = v.D ∧ WellFormed w ∧
        w.getConstraint = ops.foldl (VertexOp.spec v.D) v.getConstraint := by
    intro ops
    induction ops with
    | nil => intro v _ hw; exact ⟨v, rfl, rfl, hw, rfl⟩
    | cons op ops ih =>
      intro v hf hw
      obtain ⟨w, h1, h2, h3, h4⟩ := (vertexOp_step op v hw).1 (hf op (by simp))
      obtain ⟨w', g1, g2, g3, g4⟩ := ih w (fun o ho => by rw [h2]; exact hf o (by simp [ho])) h3
      refine ⟨w', ?_, g2.trans h2, g3, ?_⟩
      · rw [List.foldlM_cons, h1]; exact g1
      · rw [g4, h4, h2]; rfl
  obtain ⟨v, h1, h2, h3, h4⟩ := key ops (Vertex.mk' D) hfit (wellFormed_mk' D)
  have h4' : v.getConstraint = ops.foldl (VertexOp.spec D) (fun _ => none) := h4
  refine ⟨v, h1, h2, h3, ?_, fun k => by rw [h4'], fun k => ?_, by simp [Vertex.getNumberOfConstraints], ?_, fun k => ?_⟩
  · rw [← h4']; exact represents_getConstraint v h3
  · rw [← h4']; rfl
  · rw [List.Nodup, List.pairwise_map]
    exact h3.1.imp (fun h => ne_of_lt h)
  · rw [← h4', List.mem_map, Option.isSome_iff_exists]
    constructor
    · rintro ⟨⟨k', c⟩, hm, rfl⟩
      exact ⟨c, (represents_getConstraint v h3 k' c).mp hm⟩
    · rintro ⟨c, hc⟩
      exact ⟨(k, c), (represents_getConstraint v h3 k c).mpr hc, rfl⟩

/-- C19: a vector of the wrong dimension aborts the process, at the first such operation. -/
theorem C19_wrong_dimension_aborts (D : ℕ) (ops : List (VertexOp K)) (op : VertexOp K) (rest : List (VertexOp K))
    (hfit : ∀ op ∈ ops, op.fits D) (hop : ¬ op.fits D) :
    (ops ++ op :: rest).foldlM VertexOp.run (Vertex.mk' D) = .error .check := by
  obtain ⟨v, h1, h2, h3, _⟩ := C19_store_is_map D ops hfit
  rw [List.foldlM_append, h1]
  simp only [bind, Except.bind, List.foldlM_cons]
  rw [(vertexOp_step op v h3).2 (by rw [h2]; exact hop)]

/-- C19: `removeConstraint` says whether the order was constrained. -/
theorem C19_remove_reports (v : Vertex K) (hw : WellFormed v) (k : Int) :
    (v.removeConstraint k).1 = true ↔ ∃ c, (k, c) ∈ v.constraints := by
  rw [(removeConstraint_spec v k hw).1, Option.isSome_iff_exists]
  exact exists_congr fun c => (represents_getConstraint v hw k c).symm

example : ([.startOrEnd [1, 2] 2, .remove 1, .add 0 [3, 4]] : List (VertexOp ℚ)).foldlM VertexOp.run (Vertex.mk' 2) =
    .ok ⟨2, [(0, [3, 4]), (2, [0, 0])]⟩ := by decide +kernel

/-! ## C20: comparison and projection -/

/-- Two vertices constrain the same orders, with all coordinates within `tol`. -/
def SameWithin (v w : Vertex K) (tol : K) : Prop :=
  ∀ k : Int, match v.getConstraint k, w.getConstraint k with
    | none, none => True
    | some a, some b => a.length = b.length ∧ ∀ (i : ℕ) (x y : K), a[i]? = some x → b[i]? = some y → |x - y| ≤ tol
    | _, _ => False

theorem all_zipWith (a b : List K) (tol : K) :
    (List.zipWith (fun a b => decide (|a - b| ≤ tol)) a b).all id = true ↔
      ∀ (i : ℕ) (x y : K), a[i]? = some x → b[i]? = some y → |x - y| ≤ tol := by
  induction a generalizing b with
  | nil => simp
  | cons x a ih =>
    cases b with
    | nil => simp
    | cons y b =>
      simp only [List.zipWith_cons_cons, List.all_cons, id_eq, Bool.and_eq_true, decide_eq_true_eq, ih]
      constructor
      · rintro ⟨h1, h2⟩ i u w hu hw
        cases i with
        | zero => simp at hu hw; subst hu hw; exact h1
        | succ i => exact h2 i u w (by simpa using hu) (by simpa using hw)
      · intro h
        exact ⟨h 0 x y rfl rfl, fun i u w hu hw => h (i + 1) u w (by simpa using hu) (by simpa using hw)⟩

theorem equalLoop_spec (tol : K) (D : ℕ) (rhs l : List (Int × List K)) (hl : ∀ x ∈ l, x.2.length = D)
    (hr : ∀ k c, IntMap.find k rhs = some c → c.length = D) :
    ∃ b, Vertex.equalLoop tol rhs l = .ok b ∧ (b = true ↔ ∀ x ∈ l, ∃ c, IntMap.find x.1 rhs = some c ∧
      ∀ (i : ℕ) (u w : K), x.2[i]? = some u → c[i]? = some w → |u - w| ≤ tol) := by
  induction l with
  | nil => exact ⟨true, rfl, by simp⟩
  | cons a l ih =>
    obtain ⟨k, c⟩ := a
    obtain ⟨b, h1, h2⟩ := ih (fun x hx => hl x (by simp [hx]))
    unfold Vertex.equalLoop
    cases hf : IntMap.find k rhs with
    | none => exact ⟨false, rfl, by simp [hf]⟩
    | some c' =>
      simp only
      rw [if_neg (by rw [hl (k, c) (by simp), hr k c' hf]; simp)]
      by_cases hall : (List.zipWith (fun a b => decide (|a - b| ≤ tol)) c c').all id = true
      · rw [if_pos hall]
        refine ⟨b, h1, ?_⟩
        rw [h2]
        rw [all_zipWith] at hall
        simp only [List.mem_cons, forall_eq_or_imp]
        constructor
        · intro h; exact ⟨⟨c', hf, hall⟩, h⟩
        · intro h; exact h.2
      · rw [if_neg hall]
        refine ⟨false, rfl, ?_⟩
        rw [all_zipWith] at hall
        simp only [Bool.false_eq_true, List.mem_cons, forall_eq_or_imp, false_iff, not_and]
        rintro ⟨c'', hc'', hh⟩
        rw [hf] at hc''
        cases hc''
        exact absurd hh hall

/-- C20: on vertices of the same dimension `isEqualTol` always answers, and answers true exactly when both constrain the same orders
with coordinates within the tolerance. -/
theorem C20_isEqualTol_iff (v w : Vertex K) (hv : WellFormed v) (hw : WellFormed w) (hD : v.D = w.D) (tol : K) :
    ∃ b, v.isEqualTol w tol = .ok b ∧ (b = true ↔ SameWithin v w tol) := by
  have rv := represents_getConstraint v hv
  have rw' := represents_getConstraint w hw
  obtain ⟨b, h1, h2⟩ := equalLoop_spec tol v.D w.constraints v.constraints hv.2
    (fun k c hc => by rw [hD]; exact hw.2 (k, c) ((IntMap.find_some_iff _ hw.1 k c).mp hc))
  have keysv : (v.constraints.map (·.1)).Nodup := by
    rw [List.Nodup, List.pairwise_map]; exact hv.1.imp (fun h => ne_of_lt h)
  have keysw : (w.constraints.map (·.1)).Nodup := by
    rw [List.Nodup, List.pairwise_map]; exact hw.1.imp (fun h => ne_of_lt h)
  unfold Vertex.isEqualTol
  by_cases hlen : v.constraints.length = w.constraints.length
  · rw [if_neg (by simp [hlen])]
    refine ⟨b, h1, ?_⟩
    rw [h2]
    constructor
    · intro h k
      -- equal sizes and one inclusion of keys give the other inclusion
      have hsub : v.constraints.map (·.1) ⊆ w.constraints.map (·.1) := by
        intro x hx
        obtain ⟨y, hy, rfl⟩ := List.mem_map.mp hx
        obtain ⟨c, hc, _⟩ := h y hy
        exact List.mem_map.mpr ⟨(y.1, c), (IntMap.find_some_iff _ hw.1 _ _).mp hc, rfl⟩
      have hperm : (v.constraints.map (·.1)).Perm (w.constraints.map (·.1)) :=
        (List.subperm_of_subset keysv hsub).perm_of_length_le (by simp [hlen])
      cases ha : v.getConstraint k with
      | none =>
        cases hb : w.getConstraint k with
        | none => trivial
        | some c =>
          exfalso
          have : k ∈ w.constraints.map (·.1) := List.mem_map.mpr ⟨(k, c), (rw' k c).mpr hb, rfl⟩
          obtain ⟨y, hy, hy2⟩ := List.mem_map.mp (hperm.mem_iff.mpr this)
          have := (rv y.1 y.2).mp hy
          rw [hy2, ha] at this; cases this
      | some a =>
        obtain ⟨c, hc, hcc⟩ := h (k, a) ((rv k a).mpr ha)
        have hb : w.getConstraint k = some c := hc
        rw [hb]
        refine ⟨?_, hcc⟩
        rw [hv.2 (k, a) ((rv k a).mpr ha), hw.2 (k, c) ((rw' k c).mpr hb), hD]
    · intro h x hx
      have ha := (rv x.1 x.2).mp hx
      have hk := h x.1
      rw [ha] at hk
      cases hb : w.getConstraint x.1 with
      | none => rw [hb] at hk; exact absurd hk id
      | some c => rw [hb] at hk; exact ⟨c, hb, hk.2⟩
  · rw [if_pos hlen]
    refine ⟨false, rfl, ?_⟩
    simp only [Bool.false_eq_true, false_iff]
    intro h
    apply hlen
    have hperm : (v.constraints.map (·.1)).Perm (w.constraints.map (·.1)) := by
      rw [List.perm_ext_iff_of_nodup keysv keysw]
      intro k
      have hk := h k
      have e1 : k ∈ v.constraints.map (·.1) ↔ ∃ c, v.getConstraint k = some c := by
        constructor
        · intro hm; obtain ⟨y, hy, rfl⟩ := List.mem_map.mp hm; exact ⟨y.2, (rv _ _).mp hy⟩
        · rintro ⟨c, hc⟩; exact List.mem_map.mpr ⟨(k, c), (rv k c).mpr hc, rfl⟩
      have e2 : k ∈ w.constraints.map (·.1) ↔ ∃ c, w.getConstraint k = some c := by
        constructor
        · intro hm; obtain ⟨y, hy, rfl⟩ := List.mem_map.mp hm; exact ⟨y.2, (rw' _ _).mp hy⟩
        · rintro ⟨c, hc⟩; exact List.mem_map.mpr ⟨(k, c), (rw' k c).mpr hc, rfl⟩
      rw [e1, e2]
      cases ha : v.getConstraint k <;> cases hb : w.getConstraint k <;> rw [ha, hb] at hk <;> simp at hk ⊢
    simpa using hperm.length_eq

/-- C20: reflexive for non-negative tolerances. -/
theorem C20_isEqualTol_refl (v : Vertex K) (hv : WellFormed v) (tol : K) (ht : 0 ≤ tol) : v.isEqualTol v tol = .ok true := by
  obtain ⟨b, h1, h2⟩ := C20_isEqualTol_iff v v hv hv rfl tol
  rw [h1, h2.mpr]
  intro k
  cases hk : v.getConstraint k with
  | none => trivial
  | some a =>
    refine ⟨rfl, fun i x y hx hy => ?_⟩
    rw [hx] at hy; cases hy; simpa using ht

/-- C20: symmetric. -/
theorem C20_isEqualTol_symm (v w : Vertex K) (hv : WellFormed v) (hw : WellFormed w) (hD : v.D = w.D) (tol : K) :
    v.isEqualTol w tol = w.isEqualTol v tol := by
  obtain ⟨b, h1, h2⟩ := C20_isEqualTol_iff v w hv hw hD tol
  obtain ⟨b', h1', h2'⟩ := C20_isEqualTol_iff w v hw hv hD.symm tol
  have flip : ∀ a b : Vertex K, SameWithin a b tol → SameWithin b a tol := by
    intro a b h k
    have hk := h k
    cases ha : a.getConstraint k <;> cases hb : b.getConstraint k <;> rw [ha, hb] at hk
    · trivial
    · exact hk
    · exact hk
    · exact ⟨hk.1.symm, fun i x y hx hy => by rw [abs_sub_comm]; exact hk.2 i y x hy hx⟩
  rw [h1, h1']
  congr 1
  rw [Bool.eq_iff_iff, h2, h2']
  exact ⟨flip v w, flip w v⟩

/-- C20, the precondition on dimensions is needed: comparing vertices of different dimension that constrain a common order (and
the same number of orders) is undefined behaviour. -/
theorem C20_different_dimension_ub (a b : List K) (h : a.length ≠ b.length) (tol : K) :
    (⟨a.length, [(0, a)]⟩ : Vertex K).isEqualTol ⟨b.length, [(0, b)]⟩ tol = .error .ub := by
  simp [Vertex.isEqualTol, Vertex.equalLoop, IntMap.find, h]

theorem project_ok (c : List K) (subs : List ℕ) (h : ∀ d ∈ subs, d < c.length) :
    ∃ r, Vertex.project c subs = .ok r ∧ r.length = subs.length ∧
      ∀ (i d : ℕ), subs[i]? = some d → r[i]? = c[d]? := by
  have : Vertex.project c subs = .ok (subs.map (fun d => c.getD d 0)) := by
    apply mapM_ok
    intro d hd
    have := h d hd
    simp [at?, List.getElem?_eq_getElem this, List.getD_eq_getElem?_getD]
  refine ⟨_, this, by simp, ?_⟩
  intro i d hi
  have hd := h d (List.mem_of_getElem? hi)
  simp [hi, List.getElem?_eq_getElem hd, List.getD_eq_getElem?_getD]

theorem subLoop_spec (subs : List ℕ) (maxOrder : Int) (D : ℕ) (hsubs : ∀ d ∈ subs, d < D) (l : List (Int × List K))
    (hl : l.Pairwise (fun a b => a.1 < b.1)) (hlen : ∀ x ∈ l, x.2.length = D) (w : Vertex K) (hw : WellFormed w)
    (hwD : w.D = subs.length) (hdisj : ∀ x ∈ l, w.getConstraint x.1 = none) :
    ∃ w', Vertex.subLoop subs maxOrder l w = .ok w' ∧ w'.D = subs.length ∧ WellFormed w' ∧
      ∀ k : Int, (∀ c, (k, c) ∈ l → (k ≤ maxOrder → ∃ r, Vertex.project c subs = .ok r ∧ w'.getConstraint k = some r) ∧
        (maxOrder < k → w'.getConstraint k = none)) ∧
        ((∀ c, (k, c) ∉ l) → w'.getConstraint k = w.getConstraint k) := by
  induction l generalizing w with
  | nil => exact ⟨w, rfl, hwD, hw, fun k => ⟨fun c hc => absurd hc (by simp), fun _ => rfl⟩⟩
  | cons a l ih =>
    obtain ⟨k, c⟩ := a
    rw [List.pairwise_cons] at hl
    unfold Vertex.subLoop
    by_cases hk : k > maxOrder
    · rw [if_pos hk]
      obtain ⟨w', h1, h2, h3, h4⟩ := ih hl.2 (fun x hx => hlen x (by simp [hx])) w hw hwD (fun x hx => hdisj x (by simp [hx]))
      have hnotin : ∀ c', (k, c') ∉ l := fun c' hm => absurd (hl.1 _ hm) (lt_irrefl _)
      refine ⟨w', h1, h2, h3, fun j => ⟨fun c' hc' => ?_, fun hno => ?_⟩⟩
      · simp only [List.mem_cons, Prod.mk.injEq] at hc'
        rcases hc' with ⟨rfl, rfl⟩ | hc'
        · refine ⟨fun hle => absurd hk (by omega), fun _ => ?_⟩
          rw [(h4 j).2 hnotin]
          exact hdisj (j, c') (by simp)
        · exact (h4 j).1 c' hc'
      · exact (h4 j).2 (fun c' hm => hno c' (by simp [hm]))
    · rw [if_neg hk]
      have hc : c.length = D := hlen (k, c) (by simp)
      obtain ⟨r, hr, hrl, _⟩ := project_ok c subs (fun d hd => by rw [hc]; exact hsubs d hd)
      obtain ⟨w1, a1, a2, a3, a4⟩ := addConstraint_ok w k r hw (by rw [hrl, hwD])
      have hnotin : ∀ c', (k, c') ∉ l := fun c' hm => absurd (hl.1 _ hm) (lt_irrefl _)
      obtain ⟨w', h1, h2, h3, h4⟩ := ih hl.2 (fun x hx => hlen x (by simp [hx])) w1 a3 (by rw [a2, hwD]) (by
        intro x hx
        rw [a4, if_neg (by have := hl.1 x hx; simp only at this; omega)]
        exact hdisj x (by simp [hx]))
      refine ⟨w', ?_, h2, h3, fun j => ⟨fun c' hc' => ?_, fun hno => ?_⟩⟩
      · rw [hr]; simp only [bind, Except.bind, a1]; exact h1
      · simp only [List.mem_cons, Prod.mk.injEq] at hc'
        rcases hc' with ⟨rfl, rfl⟩ | hc'
        · refine ⟨fun _ => ⟨r, hr, ?_⟩, fun hlt => absurd hlt (by omega)⟩
          rw [(h4 j).2 hnotin, a4, if_pos rfl]
        · exact (h4 j).1 c' hc'
      · rw [(h4 j).2 (fun c' hm => hno c' (by simp [hm])), a4, if_neg]
        rintro rfl
        exact hno c (by simp)

/-- C20: projection fails exactly when a requested coordinate does not exist; otherwise the new vertex has the requested
coordinates, and its constraint of order `k` is the projection of the original one for `k ≤ maxOrder` and absent above. -/
theorem C20_getSubdimension (v : Vertex K) (hv : WellFormed v) (subs : List ℕ) (maxOrder : Int) :
    ((∃ d ∈ subs, v.D ≤ d) → ∃ w, v.getSubdimension subs maxOrder = .ok (false, w)) ∧
    ((∀ d ∈ subs, d < v.D) → ∃ w, v.getSubdimension subs maxOrder = .ok (true, w) ∧ w.D = subs.length ∧ WellFormed w ∧
      ∀ k : Int,
        (maxOrder < k → w.getConstraint k = none) ∧
        (v.getConstraint k = none → w.getConstraint k = none) ∧
        (∀ c, k ≤ maxOrder → v.getConstraint k = some c → ∃ r, w.getConstraint k = some r ∧ r.length = subs.length ∧
          ∀ (i d : ℕ), subs[i]? = some d → r[i]? = c[d]?)) := by
  constructor
  · rintro ⟨d, hd, hle⟩
    refine ⟨Vertex.mk' subs.length, ?_⟩
    unfold Vertex.getSubdimension
    rw [if_pos]
    rw [List.any_eq_true]
    exact ⟨d, hd, by simpa using hle⟩
  · intro h
    obtain ⟨w, h1, h2, h3, h4⟩ := subLoop_spec subs maxOrder v.D h v.constraints hv.1 hv.2 (Vertex.mk' subs.length)
      (wellFormed_mk' _) rfl (fun x _ => rfl)
    have rv := represents_getConstraint v hv
    refine ⟨w, ?_, h2, h3, fun k => ⟨fun hk => ?_, fun hk => ?_, fun c hk hc => ?_⟩⟩
    · unfold Vertex.getSubdimension
      rw [if_neg, h1]; rfl
      rw [List.any_eq_true]
      rintro ⟨d, hd, hle⟩
      simp at hle
      have := h d hd
      omega
    · cases hc : v.getConstraint k with
      | none => rw [(h4 k).2 (fun c hm => by rw [(rv k c).mp hm] at hc; cases hc)]; rfl
      | some c => exact ((h4 k).1 c ((rv k c).mpr hc)).2 hk
    · rw [(h4 k).2 (fun c hm => by rw [(rv k c).mp hm] at hk; cases hk)]; rfl
    · have hm := (rv k c).mpr hc
      obtain ⟨r, hr, hw⟩ := ((h4 k).1 c hm).1 hk
      obtain ⟨r', hr', hl', hp'⟩ := project_ok c subs (fun d hd => by rw [hv.2 _ hm]; exact h d hd)
      rw [hr] at hr'
      cases hr'
      exact ⟨r, hw, hl', hp'⟩

example : WellFormed (⟨2, [(0, [3, 4]), (2, [0, 0])]⟩ : Vertex ℚ) ∧
    (⟨2, [(0, [3, 4]), (2, [0, 0])]⟩ : Vertex ℚ).getSubdimension [1] 1 = .ok (true, ⟨1, [(0, [4])]⟩) ∧
    (⟨2, [(0, [3, 4])]⟩ : Vertex ℚ).isEqualTol ⟨2, [(0, [3, 5])]⟩ 1 = .ok true := by
  refine ⟨⟨by decide +kernel, by decide +kernel⟩, by decide +kernel, by decide +kernel⟩

/-! ## C18: vertices read back from a trajectory -/

/-- `v` carries exactly the derivatives `0 … k` of the trajectory at time `t`. -/
def IsVertexAt (tr : Trajectory K) (t : K) (k : ℕ) (v : Vertex K) : Prop :=
  v.D = tr.D ∧ WellFormed v ∧ (∀ j : ℕ, j ≤ k → ∃ x, tr.evaluate t j = .ok x ∧ v.getConstraint j = some x) ∧
  ∀ j : Int, (j < 0 ∨ (k : Int) < j) → v.getConstraint j = none

theorem verticesLoop_spec (tr : Trajectory K) (k : ℕ) (hc : Consistent tr) (hT : ∀ s ∈ tr.segments, 0 ≤ s.time)
    (hR : ∀ s ∈ tr.segments, Regular s) (pre post : List (Segment K)) (hsegs : tr.segments = pre ++ post) :
    ∃ vs, tr.verticesLoop k post (duration pre) = .ok vs ∧ vs.length = post.length ∧
      ∀ (j : ℕ) (v : Vertex K), vs[j]? = some v → IsVertexAt tr (startOf tr.segments (pre.length + j + 1)) k v := by
  induction post generalizing pre with
  | nil => exact ⟨[], rfl, rfl, by simp⟩
  | cons s post ih =>
    have hne : tr.segments ≠ [] := by rw [hsegs]; simp
    have e : duration pre + s.time = startOf tr.segments (pre.length + 1) := by
      rw [startOf, hsegs, show pre ++ s :: post = (pre ++ [s]) ++ post by simp,
        List.take_left' (by simp), duration_append]
      simp
    have h0 : 0 ≤ startOf tr.segments (pre.length + 1) :=
      duration_nonneg _ (fun x hx => hT x (List.mem_of_mem_take hx))
    have h1 : startOf tr.segments (pre.length + 1) ≤ duration tr.segments := by
      conv_rhs => rw [← List.take_append_drop (pre.length + 1) tr.segments, duration_append]
      have := duration_nonneg (tr.segments.drop (pre.length + 1)) (fun x hx => hT x (List.mem_of_mem_drop hx))
      rw [startOf]; linarith
    obtain ⟨v, a1, a2, a3, a4, a5⟩ := getVertexAtTime_spec tr _ k hc hT hR hne h0 h1
    obtain ⟨vs, b1, b2, b3⟩ := ih (pre ++ [s]) (by simpa using hsegs)
    refine ⟨v :: vs, ?_, by simp [b2], ?_⟩
    · unfold Trajectory.verticesLoop
      rw [e, a1]
      have e2 : duration (pre ++ [s]) = startOf tr.segments (pre.length + 1) := by rw [← e]; simp
      rw [← e2, b1]; rfl
    · intro j w hj
      cases j with
      | zero => simp at hj; subst hj; exact ⟨a2, a3, a4, a5⟩
      | succ j =>
        have := b3 j w (by simpa using hj)
        rwa [show (pre ++ [s]).length + j + 1 = pre.length + (j + 1) + 1 by simp; omega] at this

/-- C18: `getVertices` returns one vertex more than there are segments; vertex `j` carries exactly the derivatives `0 … k` of the
trajectory at the start of segment `j` (the last one at the end). -/
theorem C18_getVertices (tr : Trajectory K) (k : ℕ) (hc : Consistent tr) (hT : ∀ s ∈ tr.segments, 0 ≤ s.time)
    (hR : ∀ s ∈ tr.segments, Regular s) (hne : tr.segments ≠ []) :
    ∃ vs, tr.getVertices k = .ok vs ∧ vs.length = tr.segments.length + 1 ∧
      ∀ (j : ℕ) (v : Vertex K), vs[j]? = some v → IsVertexAt tr (startOf tr.segments j) k v := by
  obtain ⟨v, a1, a2, a3, a4, a5⟩ := getVertexAtTime_spec tr 0 k hc hT hR hne (le_refl _) (duration_nonneg _ hT)
  obtain ⟨vs, b1, b2, b3⟩ := verticesLoop_spec tr k hc hT hR [] tr.segments rfl
  refine ⟨v :: vs, ?_, by simp [b2], ?_⟩
  · unfold Trajectory.getVertices Trajectory.getStartVertex
    rw [a1]
    rw [duration_nil] at b1
    simp only [bind, Except.bind, b1]; rfl
  · intro j w hj
    cases j with
    | zero => simp at hj; subst hj; rw [startOf_zero]; exact ⟨a2, a3, a4, a5⟩
    | succ j => simpa using b3 j w (by simpa using hj)

/-- C18: `getStartVertex` and `getGoalVertex` are the vertices at time 0 and at the maximum time. -/
theorem C18_start_and_goal (tr : Trajectory K) (k : ℕ) (hc : Consistent tr) (hT : ∀ s ∈ tr.segments, 0 ≤ s.time)
    (hR : ∀ s ∈ tr.segments, Regular s) (hne : tr.segments ≠ []) :
    (∃ v, tr.getStartVertex k = .ok v ∧ IsVertexAt tr 0 k v) ∧ ∃ v, tr.getGoalVertex k = .ok v ∧ IsVertexAt tr tr.maxTime k v := by
  obtain ⟨v, a1, a⟩ := getVertexAtTime_spec tr 0 k hc hT hR hne (le_refl _) (duration_nonneg _ hT)
  obtain ⟨w, b1, b⟩ := getVertexAtTime_spec tr tr.maxTime k hc hT hR hne (by rw [hc.1]; exact duration_nonneg _ hT) (by rw [hc.1])
  exact ⟨⟨v, a1, a⟩, ⟨w, b1, b⟩⟩

/-- C18, the excluded case: an empty trajectory has no vertices to read (undefined behaviour). -/
theorem C18_empty (k : ℕ) (D N : ℕ) (m : K) : (⟨D, N, m, []⟩ : Trajectory K).getVertices k = .error .ub := by
  simp [Trajectory.getVertices, Trajectory.getStartVertex, Trajectory.getVertexAtTime, Trajectory.vertexLoop, Trajectory.evaluate,
    Trajectory.findSegment, at?, bind, Except.bind]

/-- The pair of vertices holds the first three coordinates up to order `kPos` and the fourth up to order `kYaw`. -/
def IsPosYawAt (tr : Trajectory K) (t : K) (kPos kYaw : ℕ) (pv yv : Vertex K) : Prop :=
  pv.D = 3 ∧ yv.D = 1 ∧
  (∀ j : ℕ, j ≤ kPos → ∃ x y z rest, tr.evaluate t j = .ok (x :: y :: z :: rest) ∧ pv.getConstraint j = some [x, y, z]) ∧
  (∀ j : ℕ, j ≤ kYaw → ∃ x y z w rest, tr.evaluate t j = .ok (x :: y :: z :: w :: rest) ∧ yv.getConstraint j = some [w]) ∧
  (∀ j : Int, (j < 0 ∨ (kPos : Int) < j) → pv.getConstraint j = none) ∧
  (∀ j : Int, (j < 0 ∨ (kYaw : Int) < j) → yv.getConstraint j = none)

theorem splitVertex_spec (tr : Trajectory K) (t : K) (kPos kYaw : ℕ) (hD : 4 ≤ tr.D) (v : Vertex K)
    (h : IsVertexAt tr t (max kPos kYaw) v) :
    ∃ pv yv, Trajectory.splitVertex v kPos kYaw = .ok (some (pv, yv)) ∧ IsPosYawAt tr t kPos kYaw pv yv := by
  obtain ⟨h1, h2, h3, h4⟩ := h
  obtain ⟨pv, p1, p2, _, p4⟩ := (C20_getSubdimension v h2 [0, 1, 2] kPos).2 (by
    intro d hd; simp at hd; rw [h1]; omega)
  obtain ⟨yv, y1, y2, _, y4⟩ := (C20_getSubdimension v h2 [3] kYaw).2 (by
    intro d hd; simp at hd; rw [h1]; omega)
  have hlen : ∀ (j : ℕ) (x : List K), v.getConstraint j = some x → x.length = tr.D := by
    intro j x hx
    rw [h2.2 (_, x) ((represents_getConstraint v h2 _ x).mpr hx), h1]
  refine ⟨pv, yv, ?_, p2, y2, ?_, ?_, ?_, ?_⟩
  · unfold Trajectory.splitVertex
    rw [p1]
    simp [bind, Except.bind, y1, pure, Except.pure]
  · intro j hj
    obtain ⟨x, hx, hv⟩ := h3 j (by omega)
    obtain ⟨r, hr, hrl, hr2⟩ := (p4 j).2.2 x (by exact_mod_cast hj) hv
    have hxl := hlen j x hv
    match x, hxl with
    | a :: b :: c :: rest, _ =>
      refine ⟨a, b, c, rest, hx, ?_⟩
      match r, hrl with
      | [u, v, w], _ =>
        have e0 := hr2 0 0 rfl
        have e1 := hr2 1 1 rfl
        have e2 := hr2 2 2 rfl
        simp at e0 e1 e2
        rw [hr, e0, e1, e2]
    | [], hl => simp at hl; omega
    | [_], hl => simp at hl; omega
    | [_, _], hl => simp at hl; omega
  · intro j hj
    obtain ⟨x, hx, hv⟩ := h3 j (by omega)
    obtain ⟨r, hr, hrl, hr2⟩ := (y4 j).2.2 x (by exact_mod_cast hj) hv
    have hxl := hlen j x hv
    match x, hxl with
    | a :: b :: c :: d :: rest, _ =>
      refine ⟨a, b, c, d, rest, hx, ?_⟩
      match r, hrl with
      | [u], _ =>
        have e0 := hr2 0 3 rfl
        simp at e0
        rw [hr, e0]
    | [], hl => simp at hl; omega
    | [_], hl => simp at hl; omega
    | [_, _], hl => simp at hl; omega
    | [_, _, _], hl => simp at hl; omega
  · intro j hj
    rcases hj with hj | hj
    · exact (p4 j).2.1 (h4 j (Or.inl hj))
    · exact (p4 j).1 hj
  · intro j hj
    rcases hj with hj | hj
    · exact (y4 j).2.1 (h4 j (Or.inl hj))
    · exact (y4 j).1 hj

/-- C18: the position/yaw variant on a trajectory of at least four dimensions returns, for every joint, the position and yaw parts. -/
theorem C18_getVertices_pos_yaw (tr : Trajectory K) (kPos kYaw : ℕ) (hD : 4 ≤ tr.D) (hc : Consistent tr)
    (hT : ∀ s ∈ tr.segments, 0 ≤ s.time) (hR : ∀ s ∈ tr.segments, Regular s) (hne : tr.segments ≠ []) :
    ∃ vs, tr.getVerticesPosYaw kPos kYaw = .ok (some vs) ∧ vs.length = tr.segments.length + 1 ∧
      ∀ (j : ℕ) (p : Vertex K × Vertex K), vs[j]? = some p → IsPosYawAt tr (startOf tr.segments j) kPos kYaw p.1 p.2 := by
  have loop : ∀ (post pre : List (Segment K)), tr.segments = pre ++ post →
      ∃ vs, tr.splitLoop kPos kYaw post (duration pre) = .ok (some vs) ∧ vs.length = post.length ∧
        ∀ (j : ℕ) (p : Vertex K × Vertex K), vs[j]? = some p →
          IsPosYawAt tr (startOf tr.segments (pre.length + j + 1)) kPos kYaw p.1 p.2 := by
    intro post
    induction post with
    | nil => intro pre _; exact ⟨[], rfl, rfl, by simp⟩
    | cons s post ih =>
      intro pre hsegs
      have e : duration pre + s.time = startOf tr.segments (pre.length + 1) := by
        rw [startOf, hsegs, show pre ++ s :: post = (pre ++ [s]) ++ post by simp,
          List.take_left' (by simp), duration_append]
        simp
      have h0 : 0 ≤ startOf tr.segments (pre.length + 1) :=
        duration_nonneg _ (fun x hx => hT x (List.mem_of_mem_take hx))
      have h1 : startOf tr.segments (pre.length + 1) ≤ duration tr.segments := by
        conv_rhs => rw [← List.take_append_drop (pre.length + 1) tr.segments, duration_append]
        have := duration_nonneg (tr.segments.drop (pre.length + 1)) (fun x hx => hT x (List.mem_of_mem_drop hx))
        rw [startOf]; linarith
      obtain ⟨v, a1, a⟩ := getVertexAtTime_spec tr _ (max kPos kYaw) hc hT hR hne h0 h1
      obtain ⟨pv, yv, s1, s2⟩ := splitVertex_spec tr _ kPos kYaw hD v a
      obtain ⟨vs, b1, b2, b3⟩ := ih (pre ++ [s]) (by simpa using hsegs)
      refine ⟨(pv, yv) :: vs, ?_, by simp [b2], ?_⟩
      · unfold Trajectory.splitLoop
        rw [e, a1]
        have e2 : duration (pre ++ [s]) = startOf tr.segments (pre.length + 1) := by rw [← e]; simp
        simp only [bind, Except.bind, s1]
        rw [← e2, b1]; rfl
      · intro j p hj
        cases j with
        | zero => simp at hj; subst hj; exact s2
        | succ j =>
          have := b3 j p (by simpa using hj)
          rwa [show (pre ++ [s]).length + j + 1 = pre.length + (j + 1) + 1 by simp; omega] at this
  obtain ⟨v, a1, a⟩ := getVertexAtTime_spec tr 0 (max kPos kYaw) hc hT hR hne (le_refl _) (duration_nonneg _ hT)
  obtain ⟨pv, yv, s1, s2⟩ := splitVertex_spec tr _ kPos kYaw hD v a
  obtain ⟨vs, b1, b2, b3⟩ := loop tr.segments [] rfl
  refine ⟨(pv, yv) :: vs, ?_, by simp [b2], ?_⟩
  · unfold Trajectory.getVerticesPosYaw Trajectory.getStartVertex
    rw [a1]
    rw [duration_nil] at b1
    simp only [bind, Except.bind, s1, b1]; rfl
  · intro j p hj
    cases j with
    | zero => simp at hj; subst hj; rw [startOf_zero]; exact s2
    | succ j => simpa using b3 j p (by simpa using hj)

/-- C18: with fewer than four dimensions the position/yaw variant reports failure. -/
theorem C18_pos_yaw_too_few_dimensions (tr : Trajectory K) (kPos kYaw : ℕ) (hD : tr.D < 4) (hc : Consistent tr)
    (hT : ∀ s ∈ tr.segments, 0 ≤ s.time) (hR : ∀ s ∈ tr.segments, Regular s) (hne : tr.segments ≠ []) :
    tr.getVerticesPosYaw kPos kYaw = .ok none := by
  obtain ⟨v, a1, a2, a3, _⟩ := getVertexAtTime_spec tr 0 (max kPos kYaw) hc hT hR hne (le_refl _) (duration_nonneg _ hT)
  unfold Trajectory.getVerticesPosYaw Trajectory.getStartVertex
  rw [a1]
  simp only [bind, Except.bind]
  have : Trajectory.splitVertex v kPos kYaw = .ok none := by
    unfold Trajectory.splitVertex
    obtain ⟨w, hw⟩ := (C20_getSubdimension v a3 [3] kYaw).1 ⟨3, by simp, by rw [a2]; omega⟩
    by_cases h3 : 3 ≤ tr.D
    · obtain ⟨p, hp, _⟩ := (C20_getSubdimension v a3 [0, 1, 2] kPos).2 (by
        intro d hd; simp at hd; rw [a2]; omega)
      rw [hp]; simp [bind, Except.bind, hw, pure, Except.pure]
    · obtain ⟨p, hp⟩ := (C20_getSubdimension v a3 [0, 1, 2] kPos).1 ⟨2, by simp, by rw [a2]; omega⟩
      rw [hp]; simp [bind, Except.bind, pure, Except.pure]
  rw [this]; rfl

example : Consistent sampleTraj ∧ sampleTraj.getVertices 1 =
    .ok [⟨2, [(0, [0, 1]), (1, [1, 0])]⟩, ⟨2, [(0, [2, 1]), (1, [0, -1])]⟩, ⟨2, [(0, [3, 0]), (1, [2, -1])]⟩] ∧
    sampleTraj.getVerticesPosYaw 1 1 = .ok none := by
  refine ⟨⟨by decide +kernel, by decide +kernel⟩, by decide +kernel, by decide +kernel⟩

end Verif.Properties
