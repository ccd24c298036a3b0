import Verif.Lemmas.PlannerThreadsSample
import Verif.Spec.PlannerForever

/-! # A concrete execution that goes on forever -/

set_option linter.unusedSectionVars false

namespace Verif.Lemmas
open Verif Verif.Spec

/-- Execute, without keeping anything. -/
def runAll (s : Whole ℚ) : List Move → Option (Whole ℚ)
  | [] => some s
  | m :: ms => (move s m).bind fun s' => runAll s' ms

/-- The state and what comes next, before `cyc` is repeated forever. -/
def onward (cyc : List Move) (x : Whole ℚ × List Move) : Whole ℚ × List Move :=
  match x.2 with
  | m :: r => ((move x.1 m).getD x.1, r)
  | [] => ((move x.1 (cyc.headD .request)).getD x.1, cyc.tail)

def due (cyc : List Move) (x : Whole ℚ × List Move) : Move := x.2.headD (cyc.headD .request)

def config (pre cyc : List Move) (n : ℕ) : Whole ℚ × List Move := (onward cyc)^[n] (start.s, pre)

def labelOf : Move → Option (Label ℚ)
  | .call _ => none
  | m => some m.label

theorem config_succ (pre cyc : List Move) (n : ℕ) : config pre cyc (n + 1) = onward cyc (config pre cyc n) := Function.iterate_succ_apply' _ _ _

theorem config_drop (pre cyc : List Move) (n i : ℕ) (h : i ≤ (config pre cyc n).2.length) :
    (config pre cyc (n + i)).2 = (config pre cyc n).2.drop i := by
  induction i with
  | zero => rfl
  | succ i ih =>
    have hi := ih (by omega)
    rw [← Nat.add_assoc, config_succ]
    have hne : (config pre cyc n).2.drop i ≠ [] := by rw [Ne, List.drop_eq_nil_iff]; omega
    rw [← hi] at hne
    unfold onward
    split
    · rename_i m r hr
      rw [hi] at hr
      simp only
      rw [← List.drop_drop, hr]
      rfl
    · rename_i hr; exact absurd hr hne

/-- The execution comes back to the beginning of `cyc` again and again. -/
theorem config_back (pre cyc : List Move) (n : ℕ) : (config pre cyc (n + (config pre cyc n).2.length)).2 = [] := by
  rw [config_drop pre cyc n _ (le_refl _), List.drop_length]

theorem config_cyc (pre cyc : List Move) (n i : ℕ) (h0 : (config pre cyc n).2 = []) (hi : i < cyc.length) :
    due cyc (config pre cyc (n + i)) = cyc[i] := by
  cases i with
  | zero =>
    unfold due
    rw [Nat.add_zero, h0]
    cases cyc with
    | nil => simp at hi
    | cons m r => rfl
  | succ i =>
    have h1 : (config pre cyc (n + 1)).2 = cyc.tail := by
      rw [config_succ]; unfold onward; rw [h0]
    have h2 := config_drop pre cyc (n + 1) i (by rw [h1, List.length_tail]; omega)
    unfold due
    rw [show n + (i + 1) = n + 1 + i by omega, h2, h1, List.headD_eq_head?_getD, List.head?_drop, List.getElem?_tail,
      List.getElem?_eq_getElem hi]
    rfl

/-- What holds along the way: `q` of every state and what is still to come. -/
def along (q : Whole ℚ → List Move → Bool) (s : Whole ℚ) : List Move → Bool
  | [] => true
  | m :: ms => q s (m :: ms) && match move s m with
    | none => false
    | some s' => along q s' ms

structure Loop (pre cyc : List Move) (s1 : Whole ℚ) : Prop where
  ok : ∀ m ∈ pre ++ cyc, MoveOk m
  nonempty : cyc ≠ []
  first : runAll start.s pre = some s1
  again : runAll s1 cyc = some s1

theorem config_inv {pre cyc : List Move} {s1 : Whole ℚ} (h : Loop pre cyc s1) (q : Whole ℚ → List Move → Bool)
    (hq1 : along q start.s pre = true) (hq2 : along q s1 cyc = true) (n : ℕ) :
    runAll (config pre cyc n).1 (config pre cyc n).2 = some s1 ∧ (∀ m ∈ (config pre cyc n).2, MoveOk m) ∧
      along q (config pre cyc n).1 (config pre cyc n).2 = true := by
  induction n with
  | zero => exact ⟨h.first, fun m hm => h.ok m (List.mem_append_left _ hm), hq1⟩
  | succ n ih =>
    obtain ⟨h1, h2, h3⟩ := ih
    have go : ∀ (s : Whole ℚ) (m : Move) (r : List Move), runAll s (m :: r) = some s1 → along q s (m :: r) = true →
        runAll ((move s m).getD s) r = some s1 ∧ along q ((move s m).getD s) r = true := by
      intro s m r k1 k2
      simp only [runAll] at k1
      obtain ⟨s', hs', k1⟩ := Option.bind_eq_some_iff.mp k1
      simp only [along, hs', Bool.and_eq_true] at k2
      rw [hs']
      exact ⟨k1, k2.2⟩
    rw [config_succ]
    unfold onward
    split
    · rename_i m r hr
      rw [hr] at h1 h2 h3
      obtain ⟨k1, k2⟩ := go _ _ _ h1 h3
      exact ⟨k1, fun a ha => h2 a (List.mem_cons_of_mem _ ha), k2⟩
    · rename_i hr
      rw [hr] at h1
      have hs := Option.some.inj h1
      rw [hs]
      cases hc : cyc with
      | nil => exact absurd hc h.nonempty
      | cons m r =>
        have ha := h.again
        rw [hc] at ha hq2
        obtain ⟨k1, k2⟩ := go _ _ _ ha hq2
        exact ⟨k1, fun a hh => h.ok a (List.mem_append_right _ (by rw [hc]; exact List.mem_cons_of_mem _ hh)), k2⟩

theorem config_step {pre cyc : List Move} {s1 : Whole ℚ} (h : Loop pre cyc s1) (n : ℕ) :
    move (config pre cyc n).1 (due cyc (config pre cyc n)) = some (config pre cyc (n + 1)).1 ∧ MoveOk (due cyc (config pre cyc n)) := by
  have ht : ∀ (ms : List Move) (s : Whole ℚ), runAll s ms = some s1 → along (fun _ _ => true) s ms = true := by
    intro ms
    induction ms with
    | nil => exact fun _ _ => rfl
    | cons m ms ih =>
      intro s hs
      simp only [runAll] at hs
      obtain ⟨s', hs', hs⟩ := Option.bind_eq_some_iff.mp hs
      simp only [along, hs', Bool.true_and]
      exact ih _ hs
  obtain ⟨h1, h2, _⟩ := config_inv h _ (ht _ _ h.first) (ht _ _ h.again) n
  have go : ∀ (s : Whole ℚ) (m : Move) (r : List Move), runAll s (m :: r) = some s1 → move s m = some ((move s m).getD s) := by
    intro s m r k1
    simp only [runAll] at k1
    obtain ⟨s', hs', _⟩ := Option.bind_eq_some_iff.mp k1
    rw [hs']; rfl
  rw [config_succ]
  unfold onward due
  split
  · rename_i m r hr
    rw [hr] at h1 h2 ⊢
    exact ⟨go _ _ _ h1, h2 m List.mem_cons_self⟩
  · rename_i hr
    rw [hr] at h1 ⊢
    have hs := Option.some.inj h1
    rw [hs]
    cases hc : cyc with
    | nil => exact absurd hc h.nonempty
    | cons m r =>
      have ha := h.again
      rw [hc] at ha
      exact ⟨go _ _ _ ha, h.ok m (List.mem_append_right _ (by rw [hc]; exact List.mem_cons_self))⟩

theorem config_forever {pre cyc : List Move} {s1 : Whole ℚ} (h : Loop pre cyc s1) :
    Forever hermiteEnv (fun n => (config pre cyc n).1) (fun n => labelOf (due cyc (config pre cyc n))) := by
  refine ⟨⟨_, rfl⟩, ?_, ?_⟩
  · intro n l hl
    obtain ⟨h1, h2⟩ := config_step h n
    generalize due cyc (config pre cyc n) = m at h1 h2 hl
    cases m with
    | call k => cases hl
    | _ => rw [← Option.some.inj hl]; exact move_step _ _ _ trivial h2 h1
  · intro n hl
    obtain ⟨h1, h2⟩ := config_step h n
    generalize due cyc (config pre cyc n) = m at h1 h2 hl
    cases m with
    | call k =>
      simp only [move] at h1
      split at h1
      · rename_i hf
        exact ⟨hf, k, (Option.some.inj h1).symm⟩
      · cases h1
    | _ => cases hl

theorem config_length (pre cyc : List Move) (n : ℕ) : (config pre cyc n).2.length ≤ max (pre.length - n) cyc.length := by
  induction n with
  | zero => exact le_max_left _ _
  | succ n ih =>
    rw [config_succ]
    unfold onward
    split
    · rename_i m r hr
      rw [hr, List.length_cons] at ih
      simp only
      omega
    · simp only [List.length_tail]
      omega

/-- What holds of every state and the next move. -/
theorem config_all {pre cyc : List Move} {s1 : Whole ℚ} (h : Loop pre cyc s1) (q : Whole ℚ → List Move → Bool)
    (hq1 : along q start.s pre = true) (hq2 : along q s1 cyc = true) (n : ℕ) :
    ∃ ms, ms.head? = some (due cyc (config pre cyc n)) ∧ q (config pre cyc n).1 ms = true ∧
      ms.length ≤ max (pre.length - n) cyc.length ∧ ∀ i, (hi : i < ms.length) → due cyc (config pre cyc (n + i)) = ms[i] := by
  obtain ⟨h1, _, h3⟩ := config_inv h q hq1 hq2 n
  cases hr : (config pre cyc n).2 with
  | cons m r =>
    refine ⟨m :: r, by unfold due; rw [hr]; rfl, ?_, by rw [← hr]; exact config_length pre cyc n, ?_⟩
    · rw [hr] at h3
      simp only [along, Bool.and_eq_true] at h3
      exact h3.1
    · intro i hi
      have := config_drop pre cyc n i (by rw [hr]; exact hi.le)
      unfold due
      rw [this, hr, List.headD_eq_head?_getD, List.head?_drop, List.getElem?_eq_getElem hi]
      rfl
  | nil =>
    rw [hr] at h1
    have hs := Option.some.inj h1
    refine ⟨cyc, ?_, ?_, ?_, fun i hi => config_cyc pre cyc n i hr hi⟩
    · unfold due
      rw [hr]
      cases hc : cyc with
      | nil => exact absurd hc h.nonempty
      | cons m r => rfl
    · rw [hs]
      cases hc : cyc with
      | nil => exact absurd hc h.nonempty
      | cons m r =>
        rw [hc] at hq2
        simp only [along, Bool.and_eq_true] at hq2
        exact hq2.1
    · exact le_max_right _ _

/-- Execute as long as every step is fine. -/
def keeping (ok : Whole ℚ → Move → Whole ℚ → Bool) (s : Whole ℚ) : List Move → Option (Whole ℚ)
  | [] => some s
  | m :: ms => (move s m).bind fun s' => if ok s m s' then keeping ok s' ms else none

theorem keeping_stretch {ok : Whole ℚ → Move → Whole ℚ → Bool} {P : Whole ℚ → Label ℚ → Whole ℚ → Prop}
    (hP : ∀ a m b, ok a m b = true → P a m.label b) {s0 s' : Whole ℚ} (ms : List Move) (s : Whole ℚ) (ss : List (Whole ℚ))
    (hm : ∀ m ∈ ms, MoveOk m) (h : keeping ok s ms = some s') (hs : Stretch hermiteEnv P s0 ss s) : ∃ ss', Stretch hermiteEnv P s0 ss' s' := by
  induction ms generalizing s ss with
  | nil => rw [← Option.some.inj h]; exact ⟨ss, hs⟩
  | cons m ms ih =>
    simp only [keeping] at h
    obtain ⟨b, hb, h'⟩ := Option.bind_eq_some_iff.mp h
    clear h
    split at h'
    · rename_i hok
      by_cases hc : NotCall m
      · exact ih b _ (fun x hx => hm x (List.mem_cons_of_mem _ hx)) h' (.step hs (move_step _ _ m hc (hm m List.mem_cons_self) hb) (hP _ _ _ hok))
      · cases m with
        | call k =>
          simp only [move] at hb
          split at hb
          · rename_i hf
            rw [← Option.some.inj hb] at h'
            exact ih _ _ (fun x hx => hm x (List.mem_cons_of_mem _ hx)) h' (.call k hs hf)
          · cases hb
        | _ => exact absurd trivial hc
    · cases h'

/-- A prefix, one move, a stretch and one more move. -/
def episode (ok : Whole ℚ → Move → Whole ℚ → Bool) (as bs : List Move) (m m' : Move) : Option (Trace × Whole ℚ × Whole ℚ × Whole ℚ) :=
  (moveAll start as).bind fun t => (move t.s m).bind fun s1 => (keeping ok s1 bs).bind fun s => (move s m').map fun s' => (t, s1, s, s')

theorem episode_map {ok : Whole ℚ → Move → Whole ℚ → Bool} {P : Whole ℚ → Label ℚ → Whole ℚ → Prop}
    (hP : ∀ a m b, ok a m b = true → P a m.label b) {as bs : List Move} {m m' : Move} (ha : ∀ m ∈ as, MoveOk m) (hb : ∀ m ∈ bs, MoveOk m)
    (hm : MoveOk m) (hm' : MoveOk m') (hn : NotCall m) (hn' : NotCall m') {q : Trace × Whole ℚ × Whole ℚ × Whole ℚ → Bool}
    (h : (episode ok as bs m m').map q = some true) :
    ∃ t s1 ss s s', Pending hermiteEnv t.g t.s ∧ ThreadStep hermiteEnv m.label t.s s1 ∧ Stretch hermiteEnv P s1 ss s ∧
      ThreadStep hermiteEnv m'.label s s' ∧ q (t, s1, s, s') = true := by
  obtain ⟨x, hx, hq⟩ := Option.map_eq_some_iff.mp h
  unfold episode at hx
  obtain ⟨t, h1, hx⟩ := Option.bind_eq_some_iff.mp hx
  obtain ⟨s1, h2, hx⟩ := Option.bind_eq_some_iff.mp hx
  obtain ⟨s, h3, hx⟩ := Option.bind_eq_some_iff.mp hx
  obtain ⟨s', h4, rfl⟩ := Option.map_eq_some_iff.mp hx
  obtain ⟨ss, hs⟩ := keeping_stretch hP bs s1 [s1] hb h3 .start
  exact ⟨t, s1, ss, s, s', moveAll_pending as _ t ha h1 (.init _), move_step _ _ m hn hm h2, hs, move_step _ _ m' hn' hm' h4, hq⟩

end Verif.Lemmas
