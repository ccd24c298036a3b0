import Verif.Lemmas.NonlinearFree

/-!
# Which variables the bounds of the magnitude limits are attached to
-/

set_option linter.unusedSectionVars false

namespace Verif

open Spec Lemmas Properties

namespace NonLin
open LinOpt Classical
variable {h dim : ℕ} {rf : Poly.RootFinder ℝ} {solve : LinSolver ℝ}

/-- A loop whose steps set some entries to `B` and leave the others. -/
theorem foldlM_entries {α β : Type} (f : List β → α → Res (List β)) (P : α → ℕ → Prop) (B : β) (l : List α)
    (hf : ∀ bs bs', ∀ a ∈ l, f bs a = .ok bs' → ∀ j : ℕ, bs'[j]? = if P a j then some B else bs[j]?) (bs bs' : List β)
    (hu : l.foldlM f bs = .ok bs') (j : ℕ) : bs'[j]? = if ∃ a ∈ l, P a j then some B else bs[j]? := by
  induction l generalizing bs with
  | nil =>
    rw [← Except.ok.inj hu]
    simp
  | cons a l ih =>
    rw [List.foldlM_cons] at hu
    obtain ⟨b1, h1, h2⟩ := bind_eq_ok hu
    rw [ih (fun bs bs' a ha => hf bs bs' a (by simp [ha])) b1 h2, hf bs b1 a (by simp) h1 j]
    by_cases hl : ∃ a ∈ l, P a j
    · rw [if_pos hl, if_pos]
      obtain ⟨b, hb, hp⟩ := hl
      exact ⟨b, by simp [hb], hp⟩
    · rw [if_neg hl]
      by_cases ha : P a j
      · rw [if_pos ha, if_pos ⟨a, by simp, ha⟩]
      · rw [if_neg ha, if_neg]
        rintro ⟨b, hb, hp⟩
        rcases List.mem_cons.mp hb with rfl | hb
        · exact ha hp
        · exact hl ⟨b, hb, hp⟩

theorem setBound_entries (value : ℝ) (bs bs' : List (Option ℝ × Option ℝ)) (i : ℕ) (hu : setBound value bs i = .ok bs') (j : ℕ) :
    bs'[j]? = if j = i then some (some (-|value|), some |value|) else bs[j]? := by
  unfold setBound at hu
  split at hu
  · rename_i hi
    rw [← Except.ok.inj hu, List.getElem?_set]
    by_cases hj : j = i
    · rw [if_pos hj.symm, if_pos hj, if_pos hi]
    · rw [if_neg (fun e => hj e.symm), if_neg hj]
  · cases hu

/-- The variables the limit on derivative `k` bounds: those whose number is a counter at which order `k` is counted, in some dimension. -/
def Counted (counted : List ℕ) (nFree dim k j : ℕ) : Prop := ∃ (counter d : ℕ), counted[counter]? = some k ∧ d < dim ∧ j = d * nFree + counter

theorem boundsOfConstraint_entries (vs : List (Vertex ℝ)) (derivative : Int) (nFree dim : ℕ) (c : MagConstraint)
    (bs bs' : List (Option ℝ × Option ℝ)) (hu : boundsOfConstraint vs derivative nFree dim c bs = .ok bs') (j : ℕ) :
    bs'[j]? = if Counted (countedOrders vs derivative) nFree dim c.derivative j then some (some (-|c.value|), some |c.value|) else bs[j]? := by
  unfold boundsOfConstraint at hu
  rw [foldlM_entries _ (fun a j => a.1 = c.derivative ∧ ∃ d ∈ List.range dim, j = d * nFree + a.2) (some (-|c.value|), some |c.value|) _ ?_
    bs bs' hu j]
  · congr 1
    refine propext ⟨?_, ?_⟩
    · rintro ⟨⟨k, counter⟩, hm, e, d, hd, hj⟩
      simp only at e hj
      rw [e] at hm
      exact ⟨counter, d, List.mem_zipIdx_iff_getElem?.mp hm, List.mem_range.mp hd, hj⟩
    · rintro ⟨counter, d, hc, hd, hj⟩
      exact ⟨(c.derivative, counter), List.mem_zipIdx_iff_getElem?.mpr hc, rfl, d, List.mem_range.mpr hd, hj⟩
  · rintro bs bs' ⟨k, counter⟩ _ hf j
    simp only at hf
    split at hf
    · rename_i hk
      rw [foldlM_entries _ (fun d j => j = d * nFree + counter) (some (-|c.value|), some |c.value|) _ ?_ bs bs' hf j]
      · congr 1
        simp only [hk, true_and]
      · intro bs bs' d _ hs j
        rw [setBound_entries c.value bs bs' _ hs j]
        by_cases hj : j = d * nFree + counter
        · rw [if_pos hj, if_pos hj]
        · rw [if_neg hj, if_neg hj]
    · rename_i hk
      rw [← Except.ok.inj hf, if_neg (fun hh => hk hh.1)]

/-- The bounds before widening of a variable that belongs to derivative `k`, in the sense of the counters. -/
theorem hardBounds_entries (o : NonLin h) (bs : List (Option ℝ × Option ℝ)) (hb : setFreeEndpointDerivativeHardConstraints o = .ok bs) (j k : ℕ)
    (hj : j < o.poly.dimension * o.poly.nFree)
    (hk : ∀ c ∈ o.constraints, Counted (countedOrders o.poly.vertices o.poly.derivative) o.poly.nFree o.poly.dimension c.derivative j ↔
      c.derivative = k) :
    bs[j]? = some (match lastLimit k o.constraints with
      | none => (none, none)
      | some v => (some (-|v|), some |v|)) := by
  unfold setFreeEndpointDerivativeHardConstraints at hb
  have key : ∀ (cs : List MagConstraint) (b0 b1 : List (Option ℝ × Option ℝ)),
      (∀ c ∈ cs, Counted (countedOrders o.poly.vertices o.poly.derivative) o.poly.nFree o.poly.dimension c.derivative j ↔ c.derivative = k) →
      cs.foldlM (fun bs c => boundsOfConstraint o.poly.vertices o.poly.derivative o.poly.nFree o.poly.dimension c bs) b0 = .ok b1 →
      b1[j]? = (match lastLimit k cs with
        | none => b0[j]?
        | some v => some (some (-|v|), some |v|)) := by
    intro cs
    induction cs using List.reverseRecOn with
    | nil =>
      intro b0 b1 _ hu
      rw [← Except.ok.inj hu]
      rfl
    | append_singleton cs c ih =>
      intro b0 b1 hc hu
      rw [List.foldlM_append] at hu
      obtain ⟨b2, h1, h2⟩ := bind_eq_ok hu
      rw [List.foldlM_cons] at h2
      obtain ⟨b3, h3, h4⟩ := bind_eq_ok h2
      rw [← Except.ok.inj h4]
      rw [boundsOfConstraint_entries _ _ _ _ _ _ _ h3 j]
      have h5 := ih b0 b2 (fun c hm => hc c (by simp [hm])) h1
      have h6 := hc c (by simp)
      unfold lastLimit at h5 ⊢
      rw [List.filter_append]
      by_cases he : c.derivative = k
      · rw [if_pos (h6.mpr he)]
        simp [he]
      · rw [if_neg (fun hh => he (h6.mp hh)), h5]
        simp [he]
  rw [key o.constraints _ bs hk hb]
  cases lastLimit k o.constraints with
  | none => simp [hj]
  | some v => rfl

/-- When the optimised derivative is the highest possible, the counters are the numbers of the variables. -/
theorem countedOrders_eq (vs : List (Vertex ℝ)) (derivative : Int) (hd : derivative + 1 = h) :
    countedOrders vs derivative = (freeOrders h vs).map (·.2) := by
  unfold countedOrders freeOrders
  have key : ∀ n, (vs.flatMap fun v => (List.range (derivative + 1).toNat).filter fun k : ℕ => !v.hasConstraint k) =
      ((vs.zipIdx n).flatMap fun (v, i) => ((List.range h).filter fun k : ℕ => (v.getConstraint k).isNone).map fun k => (i, k)).map (·.2) := by
    induction vs with
    | nil => simp
    | cons v vs ih =>
      intro n
      rw [List.zipIdx_cons, List.flatMap_cons, List.flatMap_cons, List.map_append, List.map_map, ← ih (n + 1)]
      congr 1
      rw [hd, Int.toNat_natCast]
      have : ((fun x : ℕ × ℕ => x.2) ∘ fun k => (n, k)) = id := rfl
      rw [this, List.map_id]
      apply List.filter_congr
      intro k _
      unfold Vertex.hasConstraint Vertex.getConstraint
      cases IntMap.find (k : Int) v.constraints <;> rfl
  exact key 0

/-- A variable belongs to one counter and one dimension. -/
theorem counted_iff (counted : List ℕ) (nFree dim k d i : ℕ) (hd : d < dim) (hi : i < nFree) (hl : counted.length ≤ nFree) :
    Counted counted nFree dim k (d * nFree + i) ↔ counted[i]? = some k := by
  constructor
  · rintro ⟨counter, d', hc, _, hj⟩
    have hlt := (List.getElem?_eq_some_iff.mp hc).1
    have h1 : (d * nFree + i) % nFree = i := by rw [Nat.mul_add_mod', Nat.mod_eq_of_lt hi]
    have h2 : (d' * nFree + counter) % nFree = counter := by rw [Nat.mul_add_mod', Nat.mod_eq_of_lt (by omega)]
    rw [hj, h2] at h1
    rw [← h1]
    exact hc
  · exact fun hc => ⟨i, d, hc, hd, rfl⟩

theorem widen_both (x v : ℝ) : widen x (some (-|v|), some |v|) = (some (min (-|v|) x), some (max |v| x)) := by
  unfold widen
  simp only
  have := abs_nonneg v
  split
  · rename_i hx
    rw [min_eq_right hx.le, max_eq_left (by linarith)]
  · rename_i hx
    rw [min_eq_left (not_lt.mp hx)]
    split
    · rename_i hu; rw [max_eq_right hu.le]
    · rename_i hu; rw [max_eq_left (not_lt.mp hu)]

/-- The bounds of a free variable in the problem handed to NLopt. -/
theorem fullProblem_free (o : NonLin h) (p : NloptProblem) (hp : fullProblem o = .ok p) (bs : List (Option ℝ × Option ℝ))
    (hb : setFreeEndpointDerivativeHardConstraints o = .ok bs) (j : ℕ) (y : ℝ) (b : Option ℝ × Option ℝ)
    (hy : p.x0[o.poly.times.length + j]? = some y) (hj : bs[j]? = some b) :
    p.lower[o.poly.times.length + j]? = some (widen y b).1 ∧ p.upper[o.poly.times.length + j]? = some (widen y b).2 := by
  obtain ⟨bs', h1, _, _, h3, h4, _⟩ := fullProblem_ok o p hp
  rw [hb] at h1
  rw [← Except.ok.inj h1] at h3 h4
  rw [h3, h4]
  simp only [List.getElem?_map, List.getElem?_zipWith, hy]
  rw [List.getElem?_append_right (by simp)]
  simp only [List.length_map, Nat.add_sub_cancel_left, hj, Option.map_some, and_self]

end NonLin

end Verif
