import Mathlib.Algebra.Order.Field.Basic
import Mathlib.Data.List.Forall2
import Mathlib.Tactic.Linarith
import Verif.Spec.DemoDriver

set_option linter.unusedSectionVars false

/-! # Lemmas on the driver of the tests (C150) -/

namespace Verif.Demo
open Verif Verif.Spec

variable {K : Type*} [Field K] [LinearOrder K] [IsStrictOrderedRing K]

/-- One call: a move only at the instant, one second after the last one. -/
theorem modify_cases (m : Mover K) (t : K) (i : ℕ) (ws : List (Waypoint K)) (last : Option K) :
    ((m.modify t i ws last).2.2 = none ∧ ((m.modify t i ws last).2.1 = last ∨ (m.modify t i ws last).2.1 = some (last.getD t))) ∨
      ∃ mv, (m.modify t i ws last).2.2 = some mv ∧ mv.time = t ∧ mv.who = i ∧ mv.name = m.name ∧ (m.modify t i ws last).2.1 = some t ∧
        ∃ l, last = some l ∧ 1 < t - l := by
  have hn : (if m.has = false ∨ m.wpTime < 1 / 10 then m.load ws else m).name = m.name := by
    split
    · unfold Mover.load; split <;> rfl
    · rfl
  unfold Mover.modify
  simp only
  generalize (if m.has = false ∨ m.wpTime < 1 / 10 then m.load ws else m) = m' at hn ⊢
  cases m'.has with
  | false => left; exact ⟨rfl, Or.inl rfl⟩
  | true =>
    simp only [if_true]
    unfold Mover.trigger
    simp only
    split_ifs with h1 h2 h2
    · right
      refine ⟨_, rfl, rfl, rfl, hn, rfl, ?_⟩
      cases last with
      | none => simp at h1; linarith [h1.2.2]
      | some l => exact ⟨l, rfl, by simpa using h1.2.2⟩
    · simp at h2
    · simp at h2
    · left; exact ⟨rfl, Or.inr rfl⟩

theorem pass_quiet (t : K) (view : ℕ → List (Waypoint K)) (i : ℕ) (ms : List (Mover K)) (last : Option K) (count : ℕ)
    (h : ¬ 1 < t - last.getD t) :
    (pass t view i ms last count).2.2.2 = [] ∧ (pass t view i ms last count).2.2.1 = count ∧
      ((pass t view i ms last count).2.1 = last ∨ (pass t view i ms last count).2.1 = some (last.getD t)) := by
  induction ms generalizing i last with
  | nil => exact ⟨rfl, rfl, Or.inl rfl⟩
  | cons m ms ih =>
    unfold pass
    split
    · exact ih (i + 1) last h
    · rcases modify_cases m t i (view i) last with ⟨h1, h2⟩ | ⟨mv, _, _, _, _, _, l, rfl, h3⟩
      · simp only [h1]
        rcases h2 with h2 | h2
        · rw [h2]; exact ih (i + 1) last h
        · rw [h2]
          have := ih (i + 1) (some (last.getD t)) (by simpa using h)
          refine ⟨this.1, this.2.1, Or.inr ?_⟩
          rcases this.2.2 with g | g <;> simpa using g
      · exact absurd h3 (by simpa using h)

/-- One pass: at most one move, a second after the last one. -/
theorem pass_cases (t : K) (view : ℕ → List (Waypoint K)) (i : ℕ) (ms : List (Mover K)) (last : Option K) (count : ℕ) :
    ((pass t view i ms last count).2.2.2 = [] ∧ (pass t view i ms last count).2.2.1 = count ∧
      ((pass t view i ms last count).2.1 = last ∨ (pass t view i ms last count).2.1 = some (last.getD t))) ∨
    ∃ mv, (pass t view i ms last count).2.2.2 = [mv] ∧ (pass t view i ms last count).2.2.1 = count + 1 ∧ count ≤ 100 ∧ mv.time = t ∧
      (pass t view i ms last count).2.1 = some t ∧ ∃ l, last = some l ∧ 1 < t - l := by
  induction ms generalizing i last with
  | nil => left; exact ⟨rfl, rfl, Or.inl rfl⟩
  | cons m ms ih =>
    unfold pass
    split
    · exact ih (i + 1) last
    · rename_i hc
      rcases modify_cases m t i (view i) last with ⟨h1, h2⟩ | ⟨mv, h1, h2, _, _, h4, h5⟩
      · simp only [h1]
        have hr := ih (i + 1) (m.modify t i (view i) last).2.1
        rcases h2 with h2 | h2
        · rw [h2] at hr ⊢; exact hr
        · rw [h2] at hr ⊢
          rcases hr with ⟨g1, g2, g3⟩ | ⟨mv, g1, g2, g3, g4, g5, l, g6, g7⟩
          · left
            refine ⟨g1, g2, Or.inr ?_⟩
            rcases g3 with g | g <;> simpa using g
          · right
            refine ⟨mv, g1, g2, g3, g4, g5, ?_⟩
            cases last with
            | none => simp at g6; subst g6; linarith
            | some l' => simp at g6; subst g6; exact ⟨_, rfl, g7⟩
      · simp only [h1, h4]
        right
        obtain ⟨g1, g2, g3⟩ := pass_quiet t view (i + 1) ms (some t) (count + 1) (by simp)
        refine ⟨mv, by rw [g1], g2, by omega, h2, ?_, h5⟩
        rcases g3 with g | g <;> simpa using g

theorem passes_spaced (ms : List (Mover K)) (last : Option K) (count : ℕ) (hc : count ≤ 101) (ps : List (K × (ℕ → List (Waypoint K)))) :
    (passes ms last count ps).Pairwise (fun a b => 1 < b.time - a.time) ∧ (∀ l, last = some l → ∀ a ∈ passes ms last count ps, 1 < a.time - l) ∧
      count + (passes ms last count ps).length ≤ 101 ∧ ∀ a ∈ passes ms last count ps, a.time ∈ ps.map Prod.fst := by
  induction ps generalizing ms last count with
  | nil => simpa [passes] using hc
  | cons p ps ih =>
    obtain ⟨t, view⟩ := p
    unfold passes
    simp only
    rcases pass_cases t view 0 ms last count with ⟨h1, h2, h3⟩ | ⟨mv, h1, h2, h3, h4, h5, l, rfl, h7⟩
    · obtain ⟨g1, g2, g3, g4⟩ := ih (pass t view 0 ms last count).1 (pass t view 0 ms last count).2.1 (pass t view 0 ms last count).2.2.1 (by omega)
      rw [h1, List.nil_append]
      refine ⟨g1, ?_, by rw [h2] at g3 ⊢; exact g3, fun a ha => List.mem_cons_of_mem _ (g4 a ha)⟩
      rintro l rfl
      exact g2 l (by rcases h3 with h | h <;> simpa using h)
    · obtain ⟨g1, g2, g3, g4⟩ := ih (pass t view 0 ms (some l) count).1 (pass t view 0 ms (some l) count).2.1 (pass t view 0 ms (some l) count).2.2.1 (by omega)
      have g2' := g2 t h5
      rw [h1, List.singleton_append]
      refine ⟨List.pairwise_cons.mpr ⟨fun a ha => by rw [h4]; exact g2' a ha, g1⟩, ?_, ?_, ?_⟩
      · rintro l' hl a ha
        obtain rfl := Option.some.inj hl
        rcases List.mem_cons.mp ha with rfl | ha
        · rw [h4]; exact h7
        · linarith [g2' a ha]
      · rw [h2] at g3
        rw [List.length_cons, h2]
        omega
      · intro a ha
        rcases List.mem_cons.mp ha with rfl | ha
        · rw [h4]; simp
        · exact List.mem_cons_of_mem _ (g4 a ha)

/-! ## A planner that answers the same all the time -/

/-- Modifiers that know their waypoints, at the times `T`. -/
def Loaded (T : List K) (ms : List (Mover K)) : Prop := List.Forall₂ (fun τ m => m.has = true ∧ m.wpTime = τ ∧ 1 / 10 ≤ τ) T ms

/-- A modifier after a move. -/
def bumped (m : Mover K) : Mover K := { m with modified := ⟨m.modified.x + 1 / 5, m.modified.y + 1 / 5, m.modified.z + 1 / 5⟩ }

theorem modify_loaded (m : Mover K) (τ : K) (h : m.has = true ∧ m.wpTime = τ ∧ 1 / 10 ≤ τ) (t : K) (i : ℕ) (ws : List (Waypoint K)) (l : K) :
    m.modify t i ws (some l) = if MoveDue τ t ∧ 1 < t - l then (bumped m, some t, some ⟨t, i, m.name, (bumped m).modified⟩) else (m, some l, none) := by
  obtain ⟨name, wt, wp, md, hs⟩ := m
  obtain ⟨h1, h2, h3⟩ := h
  simp only at h1 h2
  subst h1 h2
  have hif : (if true = false ∨ wt < 1 / 10 then (⟨name, wt, wp, md, true⟩ : Mover K).load ws else ⟨name, wt, wp, md, true⟩) = ⟨name, wt, wp, md, true⟩ := by
    apply if_neg
    rintro (h | h)
    · cases h
    · linarith
  unfold Mover.modify
  simp only [hif]
  simp only [if_true, Mover.trigger, Option.getD_some]
  by_cases hc : t < wt - 3 / 10 ∧ t > wt - 10 ∧ t - l > 1
  · have hd : MoveDue wt t ∧ 1 < t - l := ⟨⟨hc.2.1, hc.1⟩, hc.2.2⟩
    simp only [if_pos hc, if_pos hd]
    rfl
  · have hd : ¬ (MoveDue wt t ∧ 1 < t - l) := fun h => hc ⟨h.1.2, h.1.1, h.2⟩
    simp only [if_neg hc, if_neg hd]
    rfl

theorem pass_loaded_quiet (T : List K) (t : K) (view : ℕ → List (Waypoint K)) (i : ℕ) (ms : List (Mover K)) (l : K) (count : ℕ) (hm : Loaded T ms)
    (h : ¬ (count ≤ 100 ∧ 1 < t - l)) : pass t view i ms (some l) count = (ms, some l, count, []) := by
  induction hm generalizing i with
  | nil => rfl
  | @cons τ m T ms h1 hm ih =>
    unfold pass
    by_cases hc : 100 < count
    · rw [if_pos hc, ih (i + 1)]
    · rw [if_neg hc, modify_loaded m τ h1, if_neg (fun g => h ⟨by omega, g.2⟩)]
      simp only
      rw [ih (i + 1)]

theorem pass_loaded (T : List K) (t : K) (view : ℕ → List (Waypoint K)) (i : ℕ) (ms : List (Mover K)) (l : K) (count : ℕ) (hm : Loaded T ms)
    (h : count ≤ 100 ∧ 1 < t - l) :
    match T.findIdx? (fun τ => MoveDue τ t) with
    | none => pass t view i ms (some l) count = (ms, some l, count, [])
    | some j => ∃ m, ms[j]? = some m ∧ pass t view i ms (some l) count = (ms.set j (bumped m), some t, count + 1, [⟨t, i + j, m.name, (bumped m).modified⟩]) := by
  induction hm generalizing i with
  | nil => rfl
  | @cons τ m T ms h1 hm ih =>
    rw [List.findIdx?_cons]
    unfold pass
    rw [if_neg (show ¬ 100 < count by omega), modify_loaded m τ h1]
    by_cases hd : MoveDue τ t
    · have hd2 : MoveDue τ t ∧ 1 < t - l := ⟨hd, h.2⟩
      simp only [if_pos hd2]
      simp only [hd, decide_true, if_true]
      refine ⟨m, rfl, ?_⟩
      rw [pass_loaded_quiet T t view (i + 1) ms t (count + 1) hm (by simp)]
      rfl
    · have hd2 : ¬ (MoveDue τ t ∧ 1 < t - l) := fun g => hd g.1
      simp only [if_neg hd2]
      simp only [hd, decide_false, Bool.false_eq_true, if_false]
      have := ih (i + 1)
      cases hf : T.findIdx? (fun τ => MoveDue τ t) with
      | none =>
        rw [hf] at this
        simp only [Option.map_none]
        rw [this]
      | some j =>
        rw [hf] at this
        obtain ⟨m', g1, g2⟩ := this
        simp only [Option.map_some]
        refine ⟨m', by simpa using g1, ?_⟩
        rw [g2]
        simp only [List.set_cons_succ, Prod.mk.injEq, List.cons.injEq, Move.mk.injEq, and_true, true_and]
        omega

theorem loaded_set (T : List K) (ms : List (Mover K)) (j : ℕ) (m : Mover K) (hm : Loaded T ms) (h : ms[j]? = some m) : Loaded T (ms.set j (bumped m)) := by
  induction hm generalizing j with
  | nil => simp at h
  | @cons τ m' T ms h1 hm ih =>
    cases j with
    | zero => simp at h; subst h; exact .cons h1 hm
    | succ j => exact .cons h1 (ih j (by simpa using h))

/-- The first pass: everybody learns of the waypoint, nobody moves. -/
theorem pass_first (t : K) (view : ℕ → List (Waypoint K)) (i : ℕ) (T : List K) (ms : List (Mover K)) (hl : T.length = ms.length)
    (hn : ∀ m ∈ ms, m.has = false)
    (hv : ∀ k τ m, T[k]? = some τ → ms[k]? = some m → 1 / 10 ≤ τ ∧ ∃ w, (view (i + k)).find? (fun w => m.name = w.name) = some w ∧ w.time = τ)
    (last : Option K) (hlast : last = none ∨ last = some t) :
    ∃ ms', pass t view i ms last 0 = (ms', if ms = [] then last else some t, 0, []) ∧ Loaded T ms' ∧ ms'.map (·.name) = ms.map (·.name) ∧
      ∀ k m m', ms[k]? = some m → ms'[k]? = some m' → ∃ w, (view (i + k)).find? (fun w => m.name = w.name) = some w ∧ m'.modified = w.current := by
  induction ms generalizing i T last with
  | nil =>
    obtain rfl := List.length_eq_zero_iff.mp hl
    exact ⟨[], by simp [pass], .nil, rfl, by simp⟩
  | cons m ms ih =>
    cases T with
    | nil => simp at hl
    | cons τ T =>
      obtain ⟨h1, w, hw, hw2⟩ := hv 0 τ m rfl rfl
      simp only [Nat.add_zero] at hw
      have hh := hn m (by simp)
      have hmod : m.modify t i (view i) last = ({ m with has := true, wpTime := w.time, wpPos := w.current, modified := w.current }, some t, none) := by
        unfold Mover.modify
        rw [if_pos (Or.inl hh)]
        simp only [Mover.load, hw, if_true, Mover.trigger]
        have hg : last.getD t = t := by rcases hlast with rfl | rfl <;> rfl
        have hno : ¬ (t < w.time - 3 / 10 ∧ t > w.time - 10 ∧ t - t > 1) := by
          rintro ⟨_, _, h⟩
          linarith
        rw [hg]
        simp only [if_neg hno]
        rfl
      obtain ⟨ms', g1, g2, g3, g4⟩ := ih (i + 1) T (by simpa using hl) (fun m hm => hn m (by simp [hm]))
        (fun k τ' m' a b => by
          have := hv (k + 1) τ' m' (by simpa using a) (by simpa using b)
          rw [Nat.add_right_comm]; exact this) (some t) (Or.inr rfl)
      refine ⟨{ m with has := true, wpTime := w.time, wpPos := w.current, modified := w.current } :: ms', ?_, .cons ⟨rfl, hw2, h1⟩ g2, by simp [g3], ?_⟩
      · unfold pass
        rw [if_neg (by omega), hmod]
        simp only [g1]
        simp
      · intro k a b ha hb
        cases k with
        | zero => simp at ha hb; subst ha hb; exact ⟨w, hw, rfl⟩
        | succ k =>
          have := g4 k a b (by simpa using ha) (by simpa using hb)
          rw [Nat.add_right_comm] at this; exact this

/-- From the second pass on: the schedule. -/
theorem passes_loaded (T : List K) (ms : List (Mover K)) (l : K) (count : ℕ) (ps : List (K × (ℕ → List (Waypoint K)))) (hm : Loaded T ms) :
    (passes ms (some l) count ps).map (fun a => (a.time, a.who)) = moveSchedule T (some l) count (ps.map Prod.fst) := by
  induction ps generalizing ms l count with
  | nil => rfl
  | cons p ps ih =>
    obtain ⟨t, view⟩ := p
    unfold passes
    simp only [List.map_cons, moveSchedule, Option.getD_some]
    by_cases h : count ≤ 100 ∧ 1 < t - l
    · rw [if_pos h]
      have := pass_loaded T t view 0 ms l count hm h
      cases hf : T.findIdx? (fun τ => MoveDue τ t) with
      | none =>
        rw [hf] at this
        simp only
        rw [this]
        exact ih ms l count hm
      | some j =>
        rw [hf] at this
        obtain ⟨m, g1, g2⟩ := this
        simp only
        rw [g2]
        simp only [List.singleton_append, List.map_cons, Nat.zero_add]
        rw [ih _ t (count + 1) (loaded_set T ms j m hm g1)]
    · rw [if_neg h]
      simp only
      rw [pass_loaded_quiet T t view 0 ms l count hm h]
      exact ih ms l count hm

/-- Where the modifiers send their waypoints: on from where they found them. -/
theorem passes_targets (T : List K) (ms : List (Mover K)) (l : K) (count : ℕ) (ps : List (K × (ℕ → List (Waypoint K)))) (hm : Loaded T ms) (i : ℕ)
    (m : Mover K) (hi : ms[i]? = some m) :
    ∀ (k : ℕ) (a : Move K), ((passes ms (some l) count ps).filter fun a => a.who = i)[k]? = some a →
      a.name = m.name ∧ a.target = ⟨m.modified.x + (k + 1) / 5, m.modified.y + (k + 1) / 5, m.modified.z + (k + 1) / 5⟩ := by
  induction ps generalizing ms l count m with
  | nil => intro k a h; simp [passes] at h
  | cons p ps ih =>
    obtain ⟨t, view⟩ := p
    unfold passes
    simp only
    by_cases h : count ≤ 100 ∧ 1 < t - l
    · have := pass_loaded T t view 0 ms l count hm h
      cases hf : T.findIdx? (fun τ => MoveDue τ t) with
      | none =>
        rw [hf] at this
        rw [this]
        exact ih ms l count hm m hi
      | some j =>
        rw [hf] at this
        obtain ⟨m', g1, g2⟩ := this
        rw [g2]
        simp only [List.singleton_append, Nat.zero_add]
        by_cases hj : j = i
        · subst hj
          obtain rfl := Option.some.inj (hi.symm.trans g1)
          rw [List.filter_cons_of_pos (by simp)]
          have ih' := ih (ms.set j (bumped m)) t (count + 1) (loaded_set T ms j m hm g1) (bumped m) (by
            rw [List.getElem?_set_self (List.getElem?_eq_some_iff.mp hi).1])
          intro k a ha
          cases k with
          | zero =>
            simp at ha; subst ha
            refine ⟨rfl, ?_⟩
            simp [bumped]
          | succ k =>
            obtain ⟨e1, e2⟩ := ih' k a (by simpa using ha)
            refine ⟨e1, ?_⟩
            rw [e2]
            simp only [bumped, V3.mk.injEq]
            push_cast
            refine ⟨?_, ?_, ?_⟩ <;> ring
        · rw [List.filter_cons_of_neg (by simpa using hj)]
          exact ih (ms.set j (bumped m')) t (count + 1) (loaded_set T ms j m' hm g1) m (by rw [List.getElem?_set_ne hj]; exact hi)
    · rw [pass_loaded_quiet T t view 0 ms l count hm h]
      exact ih ms l count hm m hi

end Verif.Demo
