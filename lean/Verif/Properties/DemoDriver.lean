import Mathlib.Tactic.NormNum
import Verif.Lemmas.DemoDriver

set_option linter.unusedSectionVars false

/-!
# Property C150: the driver of the tests moves the waypoints

For every number of modifiers, every sequence of instants and every answer of the planner.
-/

namespace Verif.Properties
open Verif Verif.Spec Verif.Demo

section
variable {K : Type*} [Field K] [LinearOrder K] [IsStrictOrderedRing K]

/-- The instants of the loop: steps of a hundredth of a second. -/
def LoopInstants (ps : List (K × (ℕ → List (Waypoint K)))) : Prop := ps.map Prod.fst = (List.range ps.length).map fun k : ℕ => ((k : K) + 1) / 100

/-- Modifiers for the names given, with whatever is in memory for the positions. -/
def FreshMovers (names : List String) (ms : List (Mover K)) : Prop :=
  List.Forall₂ (fun n m => ∃ p q, m = Mover.make n p q) names ms

/-- C150, the claim: as long as there have not been more than a hundred moves, every modifier moves its waypoint at least once in any stretch longer than a second during
which the waypoint is between ten seconds and three tenths of a second ahead. -/
def C150Full (K : Type*) [Field K] [LinearOrder K] [IsStrictOrderedRing K] : Prop :=
  ∀ (names : List String) (T : List K) (ms : List (Mover K)) (ps : List (K × (ℕ → List (Waypoint K)))), T.length = names.length → FreshMovers names ms →
    LoopInstants ps → SteadyView names T ps → (runEvaluation ms ps).length ≤ 100 →
      ∀ i τ t1 t2, T[i]? = some τ → t1 ∈ ps.map Prod.fst → t2 ∈ ps.map Prod.fst → 1 < t2 - t1 → MoveDue τ t1 → MoveDue τ t2 →
        ∃ a ∈ runEvaluation ms ps, a.who = i ∧ t1 ≤ a.time ∧ a.time ≤ t2

/-- C150: whatever the planner answers and whatever the instants are, any two moves, of the same or of different modifiers, are more than a second apart; there are never
more than 101; and each is made at one of the instants of the loop. -/
theorem C150_spacing (ms : List (Mover K)) (ps : List (K × (ℕ → List (Waypoint K)))) :
    (runEvaluation ms ps).Pairwise (fun a b => 1 < b.time - a.time) ∧ (runEvaluation ms ps).length ≤ 101 ∧
      ∀ a ∈ runEvaluation ms ps, a.time ∈ ps.map Prod.fst := by
  obtain ⟨h1, _, h3, h4⟩ := passes_spaced ms none 0 (by omega) ps
  exact ⟨h1, by simpa [runEvaluation] using h3, h4⟩

theorem movers_after_first (names : List String) (T : List K) (ms : List (Mover K)) (t : K) (view : ℕ → List (Waypoint K))
    (ps : List (K × (ℕ → List (Waypoint K)))) (hl : T.length = names.length) (hf : FreshMovers names ms) (hv : SteadyView names T ((t, view) :: ps)) :
    ∃ ms', pass t view 0 ms none 0 = (ms', if ms = [] then none else some t, 0, []) ∧ Loaded T ms' ∧ ms'.map (·.name) = names ∧
      ∀ i n m', names[i]? = some n → ms'[i]? = some m' → ∃ w, (view i).find? (fun w => n = w.name) = some w ∧ m'.modified = w.current := by
  have hn : ms.map (·.name) = names := by
    clear hl hv
    induction hf with
    | nil => rfl
    | cons h _ ih => obtain ⟨p, q, rfl⟩ := h; simp [ih, Mover.make]
  have hh : ∀ m ∈ ms, m.has = false := by
    clear hl hv hn
    induction hf with
    | nil => simp
    | cons h _ ih =>
      obtain ⟨p, q, rfl⟩ := h
      intro m hm
      rcases List.mem_cons.mp hm with rfl | hm
      · rfl
      · exact ih m hm
  obtain ⟨ms', g1, g2, g3, g4⟩ := pass_first t view 0 T ms (by rw [hl, ← hn, List.length_map]) hh (by
    intro k τ m a b
    rw [Nat.zero_add]
    exact hv (t, view) (by simp) k m.name τ (by rw [← hn, List.getElem?_map, b]; rfl) a) none (Or.inl rfl)
  refine ⟨ms', g1, g2, g3.trans hn, ?_⟩
  intro i n m' a b
  rw [← hn, List.getElem?_map, Option.map_eq_some_iff] at a
  obtain ⟨m, c, rfl⟩ := a
  have := g4 i m m' c b
  rwa [Nat.zero_add] at this

/-- C150, exactly: if the planner always gives the same times, the moves follow the schedule: a second after the last move of anybody, the first modifier of the list
whose waypoint is due. -/
theorem C150_schedule_partial (names : List String) (T : List K) (ms : List (Mover K)) (ps : List (K × (ℕ → List (Waypoint K)))) (hl : T.length = names.length)
    (hf : FreshMovers names ms) (hv : SteadyView names T ps) :
    (runEvaluation ms ps).map (fun a => (a.time, a.who)) = moveSchedule T none 0 (ps.map Prod.fst) := by
  cases ps with
  | nil => rfl
  | cons p ps =>
    obtain ⟨t, view⟩ := p
    obtain ⟨ms', h1, h2, _, _⟩ := movers_after_first names T ms t view ps hl hf hv
    unfold runEvaluation passes
    simp only [h1, List.nil_append, List.map_cons, moveSchedule, Option.getD_none]
    have hno : ¬ ((0 : ℕ) ≤ 100 ∧ 1 < t - t) := by
      rintro ⟨_, h⟩
      linarith
    simp only [if_neg hno]
    cases ms with
    | nil =>
      have hT : T = [] := by
        have : names = [] := by cases hf; rfl
        rw [this] at hl
        exact List.length_eq_zero_iff.mp hl
      subst hT
      have hms' : ms' = [] := by cases h2; rfl
      subst hms'
      have e1 : ∀ (last : Option K) (ps : List (K × (ℕ → List (Waypoint K)))), passes ([] : List (Mover K)) last 0 ps = [] := by
        intro last ps
        induction ps with
        | nil => rfl
        | cons p ps ih => obtain ⟨t, view⟩ := p; unfold passes; simp only [pass, ih, List.nil_append]
      have e2 : ∀ (l : Option K) (ts : List K), moveSchedule ([] : List K) l 0 ts = [] := by
        intro l ts
        induction ts generalizing l with
        | nil => rfl
        | cons t ts ih => simp [moveSchedule, ih]
      rw [e1, e2]; rfl
    | cons m ms =>
      rw [if_neg (by simp)]
      exact passes_loaded T ms' t 0 ps h2

theorem schedule_due (T : List K) (last : Option K) (n : ℕ) (ts : List K) (t : K) (i : ℕ) (h : (t, i) ∈ moveSchedule T last n ts) :
    t ∈ ts ∧ ∃ τ, T[i]? = some τ ∧ MoveDue τ t ∧ ∀ j τ', j < i → T[j]? = some τ' → ¬ MoveDue τ' t := by
  induction ts generalizing last n with
  | nil => simp [moveSchedule] at h
  | cons s ts ih =>
    unfold moveSchedule at h
    simp only at h
    split at h
    · rename_i k hk
      rcases List.mem_cons.mp h with h | h
      · obtain ⟨rfl, rfl⟩ := Prod.mk.inj h
        refine ⟨by simp, ?_⟩
        split at hk
        · rw [List.findIdx?_eq_some_iff_getElem] at hk
          obtain ⟨g1, g2, g3⟩ := hk
          refine ⟨T[i], List.getElem?_eq_getElem g1, by simpa using g2, ?_⟩
          intro j τ' hj hτ
          obtain ⟨hj', rfl⟩ := List.getElem?_eq_some_iff.mp hτ
          simpa using g3 j hj
        · cases hk
      · obtain ⟨g1, g2⟩ := ih _ _ h
        exact ⟨List.mem_cons_of_mem _ g1, g2⟩
    · obtain ⟨g1, g2⟩ := ih _ _ h
      exact ⟨List.mem_cons_of_mem _ g1, g2⟩

/-- C150: a waypoint is moved only while it is due, and only while no waypoint of an earlier modifier is. -/
theorem C150_who_partial (names : List String) (T : List K) (ms : List (Mover K)) (ps : List (K × (ℕ → List (Waypoint K)))) (hl : T.length = names.length)
    (hf : FreshMovers names ms) (hv : SteadyView names T ps) (a : Move K) (ha : a ∈ runEvaluation ms ps) :
    ∃ τ, T[a.who]? = some τ ∧ MoveDue τ a.time ∧ ∀ j τ', j < a.who → T[j]? = some τ' → ¬ MoveDue τ' a.time := by
  have := List.mem_map_of_mem (f := fun a : Move K => (a.time, a.who)) ha
  rw [C150_schedule_partial names T ms ps hl hf hv] at this
  exact (schedule_due T none 0 _ _ _ this).2

/-- The schedule does not let a second pass. -/
theorem schedule_moves (T : List K) (i : ℕ) (τ : K) (hi : T[i]? = some τ) (t1 t2 : K) (h12 : 1 < t2 - t1) (h2 : MoveDue τ t2) (last : Option K) (n : ℕ)
    (ts : List K) (hs : ts.Pairwise (· ≤ ·)) (hlast : ∀ l, last = some l → l ≤ t1) (hnone : last = none → ts.head? = some t1)
    (h1 : ∀ t ∈ ts, t1 ≤ t) (hm : t2 ∈ ts) (hn : n + (moveSchedule T last n ts).length ≤ 100) :
    ∃ a ∈ moveSchedule T last n ts, t1 ≤ a.1 ∧ a.1 ≤ t2 := by
  induction ts generalizing last n with
  | nil => simp at hm
  | cons t ts ih =>
    have ht2 : t ≤ t2 := by
      rcases List.mem_cons.mp hm with rfl | hm
      · exact le_rfl
      · exact (List.pairwise_cons.mp hs).1 _ hm
    have hl : last.getD t ≤ t1 := by
      cases last with
      | none => simp at hnone; simp [hnone]
      | some l => exact hlast l rfl
    unfold moveSchedule at hn ⊢
    simp only at hn ⊢
    split
    · exact ⟨_, List.mem_cons_self .., h1 t (by simp), ht2⟩
    · rename_i hk
      simp only [hk] at hn
      have hne : t2 ≠ t := by
        rintro rfl
        rw [if_pos ⟨by omega, by linarith⟩, List.findIdx?_eq_none_iff] at hk
        obtain ⟨hi', rfl⟩ := List.getElem?_eq_some_iff.mp hi
        have := hk _ (List.getElem_mem hi')
        simp [h2] at this
      rcases List.mem_cons.mp hm with rfl | hm
      · exact absurd rfl hne
      · exact ih (some (last.getD t)) n (List.pairwise_cons.mp hs).2 (by rintro l hl'; obtain rfl := Option.some.inj hl'; exact hl) (by simp)
          (fun t' ht' => h1 t' (List.mem_cons_of_mem _ ht')) hm hn

/-- The schedule from an instant on. -/
theorem schedule_from (T : List K) (t1 : K) (last : Option K) (n : ℕ) (ts : List K) (hs : ts.Pairwise (· ≤ ·)) (hlast : ∀ l, last = some l → ∀ t ∈ ts, l ≤ t)
    (hm : t1 ∈ ts) :
    ∃ pre suf last' n', ts = pre ++ t1 :: suf ∧ (∀ a ∈ moveSchedule T last' n' (t1 :: suf), a ∈ moveSchedule T last n ts) ∧ (∀ l, last' = some l → l ≤ t1) ∧
      n' + (moveSchedule T last' n' (t1 :: suf)).length = n + (moveSchedule T last n ts).length := by
  induction ts generalizing last n with
  | nil => simp at hm
  | cons t ts ih =>
    by_cases he : t = t1
    · subst he
      exact ⟨[], ts, last, n, rfl, fun _ h => h, fun l hl => hlast l hl _ (by simp), rfl⟩
    · have hm' : t1 ∈ ts := by
        rcases List.mem_cons.mp hm with h | h
        · exact absurd h.symm he
        · exact h
      have hle := (List.pairwise_cons.mp hs).1
      have hl : ∀ t' ∈ ts, last.getD t ≤ t' := by
        intro t' ht'
        cases last with
        | none => exact hle t' ht'
        | some l => exact hlast l rfl t' (List.mem_cons_of_mem _ ht')
      cases hk : (if n ≤ 100 ∧ 1 < t - last.getD t then T.findIdx? (fun τ => MoveDue τ t) else none) with
      | some k =>
        have hstep : moveSchedule T last n (t :: ts) = (t, k) :: moveSchedule T (some t) (n + 1) ts := by
          rw [moveSchedule]; simp only [hk]
        obtain ⟨pre, suf, last', n', g1, g2, g3, g4⟩ := ih (some t) (n + 1) (List.pairwise_cons.mp hs).2
          (by rintro l hl'; obtain rfl := Option.some.inj hl'; exact hle) hm'
        rw [hstep]
        exact ⟨t :: pre, suf, last', n', by rw [g1]; rfl, fun a ha => List.mem_cons_of_mem _ (g2 a ha), g3, by rw [g4, List.length_cons]; omega⟩
      | none =>
        have hstep : moveSchedule T last n (t :: ts) = moveSchedule T (some (last.getD t)) n ts := by
          rw [moveSchedule]; simp only [hk]
        obtain ⟨pre, suf, last', n', g1, g2, g3, g4⟩ := ih (some (last.getD t)) n (List.pairwise_cons.mp hs).2
          (by rintro l hl'; obtain rfl := Option.some.inj hl'; exact hl) hm'
        rw [hstep]
        exact ⟨t :: pre, suf, last', n', by rw [g1]; rfl, g2, g3, g4⟩

theorem loopInstants_sorted (ps : List (K × (ℕ → List (Waypoint K)))) (h : LoopInstants ps) : (ps.map Prod.fst).Pairwise (· ≤ ·) := by
  rw [h, List.pairwise_map]
  refine List.pairwise_lt_range.imp ?_
  intro a b hab
  have : (a : K) ≤ b := by exact_mod_cast hab.le
  have h100 : (0 : K) < 100 := by norm_num
  rw [div_le_div_iff_of_pos_right h100]
  linarith

/-- C150, what holds of any number of modifiers: in any stretch longer than a second at whose end some waypoint is due, somebody's waypoint is moved. -/
theorem C150_somebody_partial (names : List String) (T : List K) (ms : List (Mover K)) (ps : List (K × (ℕ → List (Waypoint K)))) (hl : T.length = names.length)
    (hf : FreshMovers names ms) (hp : LoopInstants ps) (hv : SteadyView names T ps) (hc : (runEvaluation ms ps).length ≤ 100) (i : ℕ) (τ t1 t2 : K)
    (hi : T[i]? = some τ) (h1 : t1 ∈ ps.map Prod.fst) (h2 : t2 ∈ ps.map Prod.fst) (h12 : 1 < t2 - t1) (hd : MoveDue τ t2) :
    ∃ a ∈ runEvaluation ms ps, t1 ≤ a.time ∧ a.time ≤ t2 := by
  have hsch := C150_schedule_partial names T ms ps hl hf hv
  have hlen : (moveSchedule T none 0 (ps.map Prod.fst)).length ≤ 100 := by rw [← hsch, List.length_map]; exact hc
  have hsort := loopInstants_sorted ps hp
  obtain ⟨pre, suf, last', n', g1, g2, g3, g4⟩ := schedule_from T t1 none 0 (ps.map Prod.fst) hsort (by simp) h1
  rw [g1, List.pairwise_append] at hsort
  have hge : ∀ t ∈ t1 :: suf, t1 ≤ t := by
    intro t ht
    rcases List.mem_cons.mp ht with rfl | ht
    · exact le_rfl
    · exact (List.pairwise_cons.mp hsort.2.1).1 t ht
  have hm : t2 ∈ t1 :: suf := by
    rw [g1] at h2
    rcases List.mem_append.mp h2 with h | h
    · have := hsort.2.2 t2 h t1 (by simp)
      linarith
    · exact h
  obtain ⟨a, ha, e1, e2⟩ := schedule_moves T i τ hi t1 t2 h12 hd last' n' (t1 :: suf) hsort.2.1 g3 (fun _ => rfl) hge hm (by omega)
  have := g2 a ha
  rw [← hsch] at this
  obtain ⟨b, hb, rfl⟩ := List.mem_map.mp this
  exact ⟨b, hb, e1, e2⟩

/-- C150, where the claim holds: one modifier. -/
theorem C150_partial (name : String) (τ : K) (ms : List (Mover K)) (ps : List (K × (ℕ → List (Waypoint K)))) (hf : FreshMovers [name] ms) (hp : LoopInstants ps)
    (hv : SteadyView [name] [τ] ps) (hc : (runEvaluation ms ps).length ≤ 100) (t1 t2 : K) (h1 : t1 ∈ ps.map Prod.fst) (h2 : t2 ∈ ps.map Prod.fst)
    (h12 : 1 < t2 - t1) (hd : MoveDue τ t2) : ∃ a ∈ runEvaluation ms ps, a.who = 0 ∧ t1 ≤ a.time ∧ a.time ≤ t2 := by
  obtain ⟨a, ha, e⟩ := C150_somebody_partial [name] [τ] ms ps rfl hf hp hv hc 0 τ t1 t2 rfl h1 h2 h12 hd
  obtain ⟨τ', h, _⟩ := C150_who_partial [name] [τ] ms ps rfl hf hv a ha
  refine ⟨a, ha, ?_, e⟩
  have := (List.getElem?_eq_some_iff.mp h).1
  simpa using this

/-- C150, where a waypoint is sent: the `k`-th move of a modifier goes `k` times a fifth, in every direction, from where the modifier found its waypoint in the first pass,
whatever has happened to the waypoint since. -/
theorem C150_where (names : List String) (T : List K) (ms : List (Mover K)) (t : K) (view : ℕ → List (Waypoint K)) (ps : List (K × (ℕ → List (Waypoint K))))
    (hl : T.length = names.length) (hf : FreshMovers names ms) (hv : SteadyView names T ((t, view) :: ps)) (i : ℕ) (n : String) (w : Waypoint K)
    (hn : names[i]? = some n) (hw : (view i).find? (fun w => n = w.name) = some w) (k : ℕ) (a : Move K)
    (ha : ((runEvaluation ms ((t, view) :: ps)).filter fun a => a.who = i)[k]? = some a) :
    a.name = n ∧ a.target = ⟨w.current.x + (k + 1) / 5, w.current.y + (k + 1) / 5, w.current.z + (k + 1) / 5⟩ := by
  obtain ⟨ms', h1, h2, h3, h4⟩ := movers_after_first names T ms t view ps hl hf hv
  have hms : ms ≠ [] := by rintro rfl; cases hf; simp at hn
  have hi : i < ms'.length := by
    have := (List.getElem?_eq_some_iff.mp hn).1
    rwa [← h3, List.length_map] at this
  have hg : ms'[i]? = some ms'[i] := List.getElem?_eq_getElem hi
  have hname : ms'[i].name = n := by
    have := hn
    rw [← h3, List.getElem?_map, hg] at this
    simpa using this
  obtain ⟨w', g1, g2⟩ := h4 i n _ hn hg
  obtain rfl := Option.some.inj (hw.symm.trans g1)
  unfold runEvaluation passes at ha
  simp only [h1, List.nil_append, if_neg hms] at ha
  have := passes_targets T ms' t 0 ps h2 i ms'[i] hg k a ha
  rw [hname, g2] at this
  exact this

end

/-! ## The claim is false -/

/-- A waypoint of the name given, five seconds ahead. -/
def demoWaypoint (n : String) : Waypoint ℚ :=
  { vertex := ⟨3, [(0, [0, 0, 0])]⟩, original := ⟨0, 0, 0⟩, current := ⟨0, 0, 0⟩, time := 5, name := n, index := -1, modifiers := [], lastSigma := 3 / 2 }

/-- Three hundred passes in which both modifiers are told of two waypoints at the same time. -/
def demoPasses (n : ℕ) : List (ℚ × (ℕ → List (Waypoint ℚ))) := (List.range n).map fun k : ℕ => (((k : ℚ) + 1) / 100, fun _ => [demoWaypoint "a", demoWaypoint "b"])

def demoMovers : List (Mover ℚ) := [Mover.make "a" ⟨0, 0, 0⟩ ⟨0, 0, 0⟩, Mover.make "b" ⟨0, 0, 0⟩ ⟨0, 0, 0⟩]

theorem demo_steady (n : ℕ) : SteadyView ["a", "b"] [5, 5] (demoPasses n) := by
  intro x hx i m τ hm hτ
  obtain ⟨k, _, rfl⟩ := List.mem_map.mp hx
  match i with
  | 0 => simp at hm hτ; subst hm hτ; exact ⟨by norm_num, demoWaypoint "a", by simp [demoWaypoint], rfl⟩
  | 1 => simp at hm hτ; subst hm hτ; exact ⟨by norm_num, demoWaypoint "b", by simp [demoWaypoint], rfl⟩
  | i + 2 => simp at hm

theorem demo_instants (n : ℕ) : LoopInstants (demoPasses n) := by
  unfold LoopInstants demoPasses
  simp [Function.comp_def]

theorem demo_length (n : ℕ) : (demoPasses n).length = n := by unfold demoPasses; rw [List.length_map, List.length_range]

theorem demo_fresh : FreshMovers ["a", "b"] demoMovers := .cons ⟨_, _, rfl⟩ (.cons ⟨_, _, rfl⟩ .nil)

/-- C150 is false of the code: of two modifiers with waypoints at the same time the second one never gets its turn. -/
theorem C150_refuted : ¬ C150Full ℚ := by
  intro h
  have hshort : (runEvaluation demoMovers (demoPasses 300)).length ≤ 100 := by
    obtain ⟨h1, _, h3⟩ := C150_spacing demoMovers (demoPasses 300)
    have hb : ∀ a ∈ runEvaluation demoMovers (demoPasses 300), 0 ≤ a.time ∧ a.time ≤ 3 := by
      intro a ha
      have := h3 a ha
      rw [demo_instants 300] at this
      obtain ⟨k, hk, e⟩ := List.mem_map.mp this
      rw [demo_length] at hk
      have hk' : k < 300 := List.mem_range.mp hk
      have : (k : ℚ) + 1 ≤ 300 := by exact_mod_cast hk'
      rw [← e]
      constructor
      · positivity
      · linarith
    -- moves more than a second apart within three seconds
    have hcount : ∀ (l : List (Move ℚ)) (c : ℚ), l.Pairwise (fun a b => 1 < b.time - a.time) → (∀ a ∈ l, c ≤ a.time ∧ a.time ≤ 3) → l ≠ [] →
        c + (l.length - 1 : ℚ) ≤ 3 := by
      intro l
      induction l with
      | nil => intro c _ _ h; exact absurd rfl h
      | cons a l ih =>
        intro c hp hb _
        obtain ⟨p1, p2⟩ := List.pairwise_cons.mp hp
        cases l with
        | nil => have := hb a (by simp); simp; linarith [this.1, this.2]
        | cons b l =>
          have := ih (a.time + 1) p2 (fun x hx => ⟨by linarith [p1 x hx], (hb x (List.mem_cons_of_mem _ hx)).2⟩) (by simp)
          have h0 := (hb a (by simp)).1
          simp only [List.length_cons] at this ⊢
          push_cast at this ⊢
          linarith
    by_contra hlong
    push Not at hlong
    have := hcount _ 0 h1 hb (by intro e; rw [e] at hlong; simp at hlong)
    have : ((runEvaluation demoMovers (demoPasses 300)).length : ℚ) ≤ 4 := by linarith
    have : (runEvaluation demoMovers (demoPasses 300)).length ≤ 4 := by exact_mod_cast this
    omega
  have hmem : ∀ k : ℕ, k < 300 → ((k : ℚ) + 1) / 100 ∈ (demoPasses 300).map Prod.fst := by
    intro k hk
    rw [demo_instants 300]
    exact List.mem_map.mpr ⟨k, by rw [demo_length]; exact List.mem_range.mpr hk, rfl⟩
  obtain ⟨a, ha, h1, h2, h3⟩ := h ["a", "b"] [5, 5] demoMovers (demoPasses 300) rfl demo_fresh (demo_instants 300) (demo_steady 300) hshort 1 5 (1 / 100) (201 / 100) rfl
    (by have := hmem 0 (by norm_num); norm_num at this ⊢; exact this) (by have := hmem 200 (by norm_num); norm_num at this ⊢; exact this) (by norm_num)
    (by unfold MoveDue; norm_num) (by unfold MoveDue; norm_num)
  obtain ⟨τ, e1, e2, e3⟩ := C150_who_partial ["a", "b"] [5, 5] demoMovers (demoPasses 300) rfl demo_fresh (demo_steady 300) a ha
  refine e3 0 5 (by omega) rfl ?_
  rw [h1] at e1
  simp at e1
  rw [e1]
  exact e2

/-- Non-vacuity: the two modifiers, for a tenth of a second over a second: one move, by the first, after a second and a hundredth. -/
example : (runEvaluation demoMovers (demoPasses 110)).map (fun a => (a.time, a.who, a.name, a.target)) = [(102 / 100, 0, "a", ⟨1 / 5, 1 / 5, 1 / 5⟩)] := by
  decide +kernel

end Verif.Properties
