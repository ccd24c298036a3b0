import Verif.Lemmas.PlannerFineLater
import Verif.Lemmas.PlannerSample

/-! # Concrete interleavings -/

set_option linter.unusedSectionVars false

namespace Verif.Lemmas
open Verif Verif.Spec

/-- What happens next: the evaluating thread begins a call or makes a step, another thread's event, the flag at the end of
`modifyWaypoints`. -/
inductive Act where
  | call (k : Purpose ℚ)
  | own
  | other (e : Event ℚ)
  | request

def ActOk : Act → Prop
  | .other e => ByOthers e ∧ ValidEvent e
  | _ => True

def NoCall : Act → Prop
  | .call _ => False
  | _ => True

def act (f : Fine ℚ) : Act → Option (Fine ℚ)
  | .call k => if f.c.isFree then some ⟨f.p, .start k⟩ else none
  | .own => (f.consume hermiteEnv).toOption.getD none
  | .other e => ((f.p.step hermiteEnv e).toOption.getD none).map fun p => ⟨p, f.c⟩
  | .request => some ⟨{ f.p with generateNew := true }, f.c⟩

theorem toOption_getD {α : Type*} {x : Res (Option α)} {a : α} (h : x.toOption.getD none = some a) : x = .ok (some a) := by
  cases x with
  | error e => cases h
  | ok o => exact congrArg Except.ok h

theorem act_inside (f f' : Fine ℚ) (a : Act) (hn : NoCall a) (ha : ActOk a) (h : act f a = some f') : InsideStep hermiteEnv f f' := by
  cases a with
  | call k => exact hn.elim
  | own => exact .own (toOption_getD h)
  | other e =>
    obtain ⟨p', hp, rfl⟩ := Option.map_eq_some_iff.mp h
    exact .other f.c (.event e ha.1 ha.2 (toOption_getD hp))
  | request =>
    rw [← Option.some.inj h]
    exact .other f.c (.request f.p)

theorem act_interleaved (f f' : Fine ℚ) (a : Act) (ha : ActOk a) (h : act f a = some f') (hi : Interleaved hermiteEnv f) :
    Interleaved hermiteEnv f' := by
  cases a with
  | call k =>
    simp only [act] at h
    split at h
    · rename_i hf
      rw [← Option.some.inj h]
      exact .call k hi hf
    · cases h
  | own => exact .inside hi (act_inside f f' .own trivial ha h)
  | other e => exact .inside hi (act_inside f f' (.other e) trivial ha h)
  | request => exact .inside hi (act_inside f f' .request trivial ha h)

/-- Execute. -/
def actAll (f : Fine ℚ) : List Act → Option (Fine ℚ)
  | [] => some f
  | a :: as => match act f a with
    | none => none
    | some f' => actAll f' as

theorem actAll_interleaved (as : List Act) (f f' : Fine ℚ) (ha : ∀ a ∈ as, ActOk a) (h : actAll f as = some f')
    (hi : Interleaved hermiteEnv f) : Interleaved hermiteEnv f' := by
  induction as generalizing f with
  | nil => rw [← Option.some.inj h]; exact hi
  | cons a as ih =>
    simp only [actAll] at h
    split at h
    · cases h
    · rename_i g hg
      exact ih g (fun b hb => ha b (List.mem_cons_of_mem _ hb)) h (act_interleaved f g a (ha a List.mem_cons_self) hg hi)

/-- Execute inside a call, keeping the states. -/
def actDuring (fs : List (Fine ℚ)) (f : Fine ℚ) : List Act → Option (List (Fine ℚ) × Fine ℚ)
  | [] => some (fs, f)
  | a :: as => match act f a with
    | none => none
    | some f' => actDuring (fs ++ [f']) f' as

theorem actDuring_during (k : Purpose ℚ) (as : List Act) (fs fs' : List (Fine ℚ)) (f f' : Fine ℚ) (ha : ∀ a ∈ as, ActOk a ∧ NoCall a)
    (h : actDuring fs f as = some (fs', f')) (hi : During hermiteEnv k fs f) : During hermiteEnv k fs' f' := by
  induction as generalizing fs f with
  | nil =>
    obtain ⟨rfl, rfl⟩ := Prod.mk.inj (Option.some.inj h)
    exact hi
  | cons a as ih =>
    simp only [actDuring] at h
    split at h
    · cases h
    · rename_i g hg
      obtain ⟨h1, h2⟩ := ha a List.mem_cons_self
      exact ih _ g (fun b hb => ha b (List.mem_cons_of_mem _ hb)) h (.inside hi (act_inside f g a h2 h1 hg))

/-- The state after a prefix, and the states of a call after it. -/
def sample (as : List Act) : Option (Fine ℚ) := actAll ⟨Planner.init ⟨0, 0, 0⟩, .free⟩ as

def sampleCall (as : List Act) (k : Purpose ℚ) (bs : List Act) : Option (List (Fine ℚ) × Fine ℚ) :=
  match sample as with
  | none => none
  | some f => if f.c.isFree then actDuring [⟨f.p, .start k⟩] ⟨f.p, .start k⟩ bs else none

theorem sample_interleaved (as : List Act) (ha : ∀ a ∈ as, ActOk a) (f : Fine ℚ) (h : sample as = some f) : Interleaved hermiteEnv f :=
  actAll_interleaved as _ f ha h (.init _)

theorem sample_map {α : Type*} (as : List Act) (ha : ∀ a ∈ as, ActOk a) (q : Fine ℚ → α) (x : α) (h : (sample as).map q = some x) :
    ∃ f, Interleaved hermiteEnv f ∧ q f = x := by
  obtain ⟨f, hf, hx⟩ := Option.map_eq_some_iff.mp h
  exact ⟨f, sample_interleaved as ha f hf, hx⟩

theorem sampleCall_map {α : Type*} (as bs : List Act) (k : Purpose ℚ) (ha : ∀ a ∈ as, ActOk a) (hb : ∀ a ∈ bs, ActOk a ∧ NoCall a)
    (q : List (Fine ℚ) → Fine ℚ → α) (x : α) (h : (sampleCall as k bs).map (fun r => q r.1 r.2) = some x) :
    ∃ fs f, During hermiteEnv k fs f ∧ q fs f = x := by
  obtain ⟨⟨fs, f⟩, hf, hx⟩ := Option.map_eq_some_iff.mp h
  refine ⟨fs, f, ?_, hx⟩
  unfold sampleCall at hf
  split at hf
  · cases hf
  · rename_i g hg
    split at hf
    · rename_i hfree
      exact actDuring_during k bs _ _ _ _ hb hf (.start (sample_interleaved as ha g hg) hfree)
    · cases hf

/-- `n` steps of the evaluating thread. -/
def owns (n : ℕ) : List Act := List.replicate n .own

theorem owns_ok (n : ℕ) : ∀ a ∈ owns n, ActOk a ∧ NoCall a := by
  intro a ha
  rw [(List.mem_replicate.mp ha).2]
  exact ⟨trivial, trivial⟩

/-! ## Computing references -/

theorem compensateLoop_exists {K : Type*} [Field K] [LinearOrder K] [IsStrictOrderedRing K] (env : Env K) (t : K) (k : ℕ) (ws : List (Waypoint K))
    (acc : V3 K) (cs : List (V3 K))
    (h : List.Forall₂ (fun w c => w.trajectoryCompensation env.exp t k = .ok c) (ws.filter fun w => w.name ≠ "") cs) :
    ∃ v, Planner.compensateLoop env t k ws acc = .ok v := by
  induction ws generalizing acc cs with
  | nil => exact ⟨acc, rfl⟩
  | cons w ws ih =>
    unfold Planner.compensateLoop
    by_cases hn : w.name = ""
    · rw [if_pos hn]
      rw [List.filter_cons_of_neg (by simp [hn])] at h
      exact ih acc cs h
    · rw [if_neg hn]
      rw [List.filter_cons_of_pos (by simp [hn])] at h
      cases h with
      | cons h1 h2 =>
        simp only [bind, Except.bind, h1]
        exact ih _ _ h2

theorem forall2_det {α β : Type*} {R : α → β → Prop} (hR : ∀ a b c, R a b → R a c → b = c) {l : List α} {l1 l2 : List β}
    (h1 : List.Forall₂ R l l1) (h2 : List.Forall₂ R l l2) : l1 = l2 := by
  induction h1 generalizing l2 with
  | nil => cases h2; rfl
  | cons a _ ih =>
    cases h2 with
    | cons b h2 => rw [hR _ _ _ a b, ih h2]

/-- The code computes what the specification names. -/
theorem reference_computed (env : Env ℚ) (p : Planner ℚ) (tr : Trajectory ℚ) (h0 : 0 ≤ tr.maxTime) (g l : ℚ) (k : ℕ) (v : V3 ℚ)
    (h : IsReference env tr p.dyn l g k v) : p.evaluateModified env tr g l k = .ok v := by
  obtain ⟨b, hb, h1, h2⟩ := h
  unfold Planner.evaluateModified
  rw [clampTime_eq l _ h0, hb]
  simp only [bind, Except.bind, V3.ofList]
  by_cases hg : 0 < g
  · rw [if_pos hg]
    obtain ⟨cs, h3, h4⟩ := h2 hg
    obtain ⟨u, hu⟩ := compensateLoop_exists env g k p.dyn b cs h3
    obtain ⟨cs', h5, h6⟩ := compensateLoop_ok env g k p.dyn b u hu
    have hcs := forall2_det (fun a b c h1 h2 => Except.ok.inj (h1.symm.trans h2)) h3 h5
    subst hcs
    have : u = v := by
      have hc : ∀ a, comp u a = comp v a := fun a => (h6 a).trans (h4 a).symm
      obtain ⟨ux, uy, uz⟩ := u
      obtain ⟨vx, vy, vz⟩ := v
      have := hc .x
      have := hc .y
      have := hc .z
      simp_all [comp]
    rw [← this]
    exact hu
  · rw [if_neg hg, h1 (not_lt.mp hg)]; rfl

/-- The references of order `k` in a state, as the code would compute them. -/
def computed (f : Fine ℚ) (t : ℚ) (k : ℕ) : Option (V3 ℚ) :=
  match f.p.traj with
  | none => none
  | some tr => (f.p.evaluateModified hermiteEnv tr (t + f.p.params.tOffset) (t - f.p.params.gtlg + f.p.params.tOffset) k).toOption

/-- What an evaluation has returned. -/
def result? (c : Consumer ℚ) : Option (References ℚ) :=
  match c with
  | .evaluated r => some r
  | _ => none

theorem result?_some {c : Consumer ℚ} {r : References ℚ} (h : result? c = some r) : c = .evaluated r := by
  cases c <;> first | cases h; rfl | cases h

/-- A plan waits. -/
def waiting? (p : Planner ℚ) : Bool :=
  match p.future with
  | .ready _ => p.computing
  | _ => false

theorem waiting?_true {p : Planner ℚ} (h : waiting? p = true) : ∃ new, p.future = .ready new ∧ p.computing = true := by
  unfold waiting? at h
  split at h
  · rename_i new hf; exact ⟨new, hf, h⟩
  · cases h

/-- The position and the velocity are not computed together in this state. -/
def disagrees (t : ℚ) (r : References ℚ) (f : Fine ℚ) : Bool :=
  match f.p.traj with
  | none => false
  | some tr => decide (0 ≤ tr.maxTime) && (decide (computed f t 0 ≠ some r.position) || decide (computed f t 1 ≠ r.velocity))

theorem disagrees_spec {t : ℚ} {r : References ℚ} {f : Fine ℚ} (h : disagrees t r f = true) {tr : Trajectory ℚ} (htr : f.p.traj = some tr)
    {v : V3 ℚ} (hv : r.velocity = some v)
    (h0 : IsReference hermiteEnv tr f.p.dyn (t - f.p.params.gtlg + f.p.params.tOffset) (t + f.p.params.tOffset) 0 r.position)
    (h1 : IsReference hermiteEnv tr f.p.dyn (t - f.p.params.gtlg + f.p.params.tOffset) (t + f.p.params.tOffset) 1 v) : False := by
  unfold disagrees at h
  rw [htr] at h
  simp only [Bool.and_eq_true, Bool.or_eq_true, decide_eq_true_eq] at h
  obtain ⟨hm, h⟩ := h
  have e0 := reference_computed hermiteEnv f.p tr hm _ _ _ _ h0
  have e1 := reference_computed hermiteEnv f.p tr hm _ _ _ _ h1
  rcases h with h | h
  · apply h
    unfold computed
    rw [htr]
    simp only [e0]
    rfl
  · apply h
    unfold computed
    rw [htr, hv]
    simp only [e1]
    rfl

/-! ## A plan and its take-over -/

/-- Two waypoints are requested and planned. -/
def planned1 : List Act :=
  (([.setSpeed 2, .updateVehiclePosition ⟨0, 0, 0⟩, .setWaypoints [wp "a" 1 0 0, wp "b" 2 1 0]] : List (Event ℚ)) ++ planEvents (1 / 100)).map .other

theorem planned1_ok : ∀ a ∈ planned1, ActOk a := by
  simp [planned1, planEvents, ActOk, ByOthers, ValidEvent, wp_bookkept]

/-- ... and taken over by `evaluateTrajectory(0)`. -/
def flying1 : List Act := planned1 ++ [.call (.evaluate 0 false false)] ++ owns 26

theorem flying1_ok : ∀ a ∈ flying1, ActOk a := by
  intro a ha
  rcases List.mem_append.mp ha with h | h
  · rcases List.mem_append.mp h with h | h
    · exact planned1_ok a h
    · rw [List.mem_singleton.mp h]; trivial
  · exact (owns_ok 26 a h).1

end Verif.Lemmas
