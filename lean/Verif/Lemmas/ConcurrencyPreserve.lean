import Verif.Lemmas.ConcurrencyStep

/-!
# Every step keeps the invariant: the hand-over of plans, the flags and the speed
-/
set_option linter.unusedSectionVars false
set_option linter.unusedVariables false

namespace Verif.Conc

variable {solo : Bool} {σ τ : State} {al : Tid → LState} {st : Stage} {i : Tid} {b : LState}
  {k : List Prog}

/-! ### Writes -/

theorem inv_write (h : Inv solo σ al st) {v : Var} (hk : σ.code i = .act (.write v) :: k)
    (hp : perm solo (role solo i) (al i) v true = true)
    (ch : Chain solo (role solo i) (al i) k) :
    Inv solo { σ with
      code := upd σ.code i k
      planVer := if v.planned then σ.planVer + 1 else σ.planVer } (upd al i (al i)) st := by
  have kp := keep (g := LState.phase) (al := al) (i := i) (b := al i) rfl
  by_cases hv : v.planned = true
  · have hst : st = .off ∨ st = .prep ∨ ∃ n, st = .pending n := by
      have : planning (role solo i) (al i) = true ∨ (al i).phase = .working := by
        cases v <;> simp_all [Var.planned, perm, Var.guard]
      rcases this with e | e
      · rcases (planning_stage h e).2 with e | e
        · exact .inl e
        · exact .inr (.inl e)
      · obtain ⟨n, e, _⟩ := stage_working h.stage e
        exact .inr (.inr ⟨n, e⟩)
    refine inv_step h (fun j hj => upd_ne _ _ hj) rfl (locks_keep (σ := σ) h rfl) (fun _ _ _ x => x)
      (h.items i) (chain_upd ch) ?_ (fun n hn e => absurd e (not_idle h hk n hn))
      (scratch_keep h.scratch rfl rfl) (speeds_keep h.speeds rfl rfl)
    have hs := h.stage
    rcases hst with e | e | ⟨n, e⟩ <;> subst e
    · obtain ⟨h1, h2, h3, h4⟩ := hs
      exact ⟨h1, h2, fun j => (kp j).trans (h3 j), h4⟩
    · obtain ⟨h1, h2, h3, h5, h4⟩ := hs
      exact ⟨h1, h2, (kp _).trans h3, fun j hj => (kp j).trans (h5 j hj), h4⟩
    · obtain ⟨h1, h2, h3, h5, h4⟩ := hs
      exact ⟨h1, h2, (kp _).trans h3, fun j hj => (kp j).trans (h5 j hj), h4⟩
  · have hv' : v.planned = false := by simpa using hv
    rw [hv']
    exact inv_move h hk ch

/-! ### Flags -/

/-- A flag that the invariant does not speak of. -/
theorem inv_flag (h : Inv solo σ al st) {f : Flag} {v : Bool} (hk : σ.code i = .act (.setFlag f v) :: k)
    (h1 : f ≠ .computing) (h2 : f ≠ .fromScratch) (ch : Chain solo (role solo i) (al i) k) :
    Inv solo { σ with
      code := upd σ.code i k
      flag := upd σ.flag f v
      log := if f = .regenerated ∧ v = true then .changed :: σ.log else σ.log }
      (upd al i (al i)) st := by
  refine inv_same h ⟨upd_ne _ _ (Ne.symm h1), upd_ne _ _ (Ne.symm h2), rfl, rfl, rfl, rfl, rfl, rfl,
    rfl, rfl, ?_, ?_, ?_, ?_, ?_⟩ rfl
    (fun j hj => upd_ne _ _ hj) (fun _ _ => rfl) rfl rfl rfl id (h.items i)
    (chain_upd ch) (not_idle h hk)
  · show startedPlans (if _ then _ else _) = _
    split <;> rfl
  · show finishedPlans (if _ then _ else _) = _
    split <;> rfl
  · show takenPlans (if _ then _ else _) = _
    split <;> rfl
  · show lastSpeed (if _ then _ else _) = _
    split <;> rfl
  · intro e
    show SpeedsRight (if _ then _ else _)
    split <;> exact e

theorem inv_commit (h : Inv solo σ al st) {v : Bool}
    (hk : σ.code i = .act (.setFlag .computing true) :: k)
    (ro : role solo i = .worker) (hf : (al i).knows .free = true) (hp : (al i).phase = .idle)
    (ch : Chain solo (role solo i) { (al i).afterCommit with phase := .committed } k) :
    Inv solo { σ with code := upd σ.code i k, flag := upd σ.flag .computing true }
      (upd al i { (al i).afterCommit with phase := .committed }) .prep := by
  obtain ⟨hw, hc⟩ := know_holds h hf
  have hoff := stage_off h.stage hc
  subst hoff
  obtain ⟨s1, s2, s3, s4, s5⟩ := h.stage
  refine inv_step h (fun j hj => upd_ne _ _ hj) rfl (locks_keep (σ := σ) h rfl) ?_ ?_ (chain_upd ch)
    ⟨rfl, s2, ?_, ?_, s4, s5⟩ ?_ ?_ (speeds_keep h.speeds rfl rfl)
  · intro j hj f hh
    cases f with
    | free => exact absurd (hh.1.trans hw.symm) hj
    | _ => exact hh
  · intro x hx
    simp only [LState.afterCommit, List.mem_filter] at hx
    have := h.items i x hx.1
    cases x with
    | know f =>
      cases f with
      | free => cases hx.2
      | _ => exact this
    | reg r v f =>
      cases f with
      | free => cases hx.2
      | _ => exact this
  · rw [← hw, upd_self]
  · intro j hj
    rw [upd_ne _ _ (by rw [hw]; exact hj)]
    exact s3 j
  · intro n hn
    rw [hw] at hn
    cases hn
  · show Scratch (upd σ.flag .computing true .fromScratch) _ _
    rw [upd_ne _ _ (by decide)]
    refine ⟨fun e => ?_, fun j hj => ?_⟩
    · rcases h.scratch.1 e with e | ⟨u, e⟩
      · exact .inl e
      · rw [s3] at e
        cases e
    · by_cases e : j = i
      · subst e
        rw [upd_self] at hj
        have := (h.scratch.2 j hj).1
        rw [hp] at this
        cases this
      · rw [upd_ne _ _ e] at hj ⊢
        exact h.scratch.2 j hj

theorem inv_release (h : Inv solo σ al st)
    (hk : σ.code i = .act (.setFlag .computing false) :: k) (hp : (al i).phase = .gotDone)
    (ch : Chain solo (role solo i) { al i with phase := .idle } k) :
    Inv solo { σ with code := upd σ.code i k, flag := upd σ.flag .computing false }
      (upd al i { al i with phase := .idle }) .off := by
  obtain ⟨u, n, hst, hu⟩ := stage_taking h.stage (i := i) (by rw [hp]; rfl)
  subst hst
  obtain ⟨s1, s2, s3, s4, s5, s6, s7⟩ := h.stage
  have ht : σ.traj = some n := by
    rcases s7 with ⟨e, _⟩ | ⟨_, e⟩
    · rw [← hu, hp] at e
      cases e
    · exact e
  have idle : ∀ j, (upd al i { al i with phase := .idle } j).phase = .idle := by
    intro j
    by_cases e : j = i
    · subst e
      rw [upd_self]
    · rw [upd_ne _ _ e]
      exact s3 j (by rw [← hu]; exact e)
  refine inv_step h (fun j hj => upd_ne _ _ hj) rfl (locks_keep (σ := σ) h rfl) ?_ ?_ (chain_upd ch)
    ⟨rfl, s2, idle, ?_, ?_⟩ ?_ ?_ (speeds_keep h.speeds rfl rfl)
  · intro j hj f hh
    cases f with
    | free => exact ⟨hh.1, rfl⟩
    | _ => exact hh
  · intro x hx
    refine item_mono ?_ (h.items i x hx)
    intro f hh
    cases f with
    | free => exact ⟨hh.1, rfl⟩
    | _ => exact hh
  · obtain ⟨c1, c2, c3, c4⟩ := s4
    refine ⟨rfl, ?_, ?_, ?_⟩
    · rw [c1]; exact c2
    · rw [c1]; exact c3
    · rw [c1]; exact c4
  · show σ.traj = prev σ.launched
    rw [ht, s4.1]
    rfl
  · intro m hm
    rw [hu] at hm
    cases hm
  · show Scratch (upd σ.flag .computing false .fromScratch) _ _
    rw [upd_ne _ _ (by decide)]
    refine ⟨fun _ => .inl (by rw [ht]; simp), fun j hj => ?_⟩
    by_cases e : j = i
    · subst e
      rw [upd_self] at hj
      have := (h.scratch.2 j hj).1
      rw [hp] at this
      cases this
    · rw [upd_ne _ _ e] at hj ⊢
      exact h.scratch.2 j hj

theorem inv_scratch_worker (h : Inv solo σ al st) {v : Bool}
    (hk : σ.code i = .act (.setFlag .fromScratch v) :: k)
    (hs : v = false → (al i).knows .sure = true)
    (ch : Chain solo (role solo i) (al i) k) :
    Inv solo { σ with code := upd σ.code i k, flag := upd σ.flag .fromScratch v }
      (upd al i (al i)) st := by
  have kp := keep (g := LState.phase) (al := al) (i := i) (b := al i) rfl
  have kc := keep (g := LState.clean) (al := al) (i := i) (b := al i) rfl
  refine inv_step h (fun j hj => upd_ne _ _ hj) rfl (locks_keep (σ := σ) h rfl) (fun _ _ _ x => x) (h.items i)
    (chain_upd ch) ?_ (fun n hn e => absurd e (not_idle h hk n hn)) ?_
    (speeds_keep h.speeds rfl rfl)
  · have hst := h.stage
    cases st with
    | off =>
      obtain ⟨h1, h2, h3, h4⟩ := hst
      exact ⟨h1, h2, fun j => (kp j).trans (h3 j), h4⟩
    | prep =>
      obtain ⟨h1, h2, h3, h5, h4⟩ := hst
      exact ⟨h1, h2, (kp _).trans h3, fun j hj => (kp j).trans (h5 j hj), h4⟩
    | pending n =>
      obtain ⟨h1, h2, h3, h5, h4⟩ := hst
      exact ⟨h1, h2, (kp _).trans h3, fun j hj => (kp j).trans (h5 j hj), h4⟩
    | ready n =>
      obtain ⟨h1, h2, h3, h4⟩ := hst
      exact ⟨h1, h2, fun j => (kp j).trans (h3 j), h4⟩
    | taken u n =>
      obtain ⟨h1, h2, h3, h4, h5, h6, h7⟩ := hst
      refine ⟨h1, h2, fun j hj => (kp j).trans (h3 j hj), h4, h5, h6, ?_⟩
      rw [kp]
      exact h7
  · show Scratch (upd σ.flag .fromScratch v .fromScratch) _ _
    rw [upd_self]
    have ht : v = false → σ.traj ≠ none := fun e => know_holds h (hs e)
    refine ⟨fun e => .inl (ht e), fun j hj => ?_⟩
    rw [kc] at hj
    rw [kp]
    exact ⟨(h.scratch.2 j hj).1, ht⟩

theorem inv_scratch_user (h : Inv solo σ al st)
    (hk : σ.code i = .act (.setFlag .fromScratch false) :: k) (hp : (al i).phase = .got)
    (ch : Chain solo (role solo i) { al i with clean := false } k) :
    Inv solo { σ with code := upd σ.code i k, flag := upd σ.flag .fromScratch false }
      (upd al i { al i with clean := false }) st := by
  obtain ⟨u, n, hst, hu⟩ := stage_taking h.stage (i := i) (by rw [hp]; rfl)
  subst hst
  have kp := keep (g := LState.phase) (al := al) (i := i) (b := { al i with clean := false }) rfl
  refine inv_step h (fun j hj => upd_ne _ _ hj) rfl (locks_keep (σ := σ) h rfl) (fun _ _ _ x => x) (h.items i)
    (chain_upd ch) ?_ (fun n hn e => absurd e (not_idle h hk n hn)) ?_
    (speeds_keep h.speeds rfl rfl)
  · obtain ⟨h1, h2, h3, h4, h5, h6, h7⟩ := h.stage
    refine ⟨h1, h2, fun j hj => (kp j).trans (h3 j hj), h4, h5, h6, ?_⟩
    rw [kp]
    exact h7
  · refine ⟨fun e => .inr ⟨u, ?_⟩, fun j hj => ?_⟩
    · rw [kp, ← hu]
      exact hp
    · by_cases e : j = i
      · subst e
        rw [upd_self] at hj
        cases hj
      · rw [upd_ne _ _ e] at hj
        have := (h.scratch.2 j hj).1
        rw [h.stage.2.2.1 j (by rw [← hu]; exact e)] at this
        cases this

/-! ### The future -/

theorem inv_get (h : Inv solo σ al st) {n : Nat} (hk : σ.code i = .act .futGet :: k)
    (ro : role solo i = .user true) (hf : σ.fut = .ready n)
    (ch : Chain solo (role solo i) { (al i).afterGet with phase := .got, clean := true } k) :
    ∃ st', Inv solo { σ with
      code := upd σ.code i k
      fut := .empty
      got := upd σ.got i n
      log := .takenOver n :: σ.log }
      (upd al i { (al i).afterGet with phase := .got, clean := true }) st' := by
  obtain ⟨u, hu⟩ := role_user ro
  have hst : st = .ready n := by
    have hs := h.stage
    cases st with
    | off => rw [hs.2.1] at hf; cases hf
    | prep => rw [hs.2.1] at hf; cases hf
    | pending m => rw [hs.2.1] at hf; cases hf
    | ready m => rw [hs.2.1] at hf; cases hf; rfl
    | taken u m => rw [hs.2.1] at hf; cases hf
  subst hst
  obtain ⟨s1, s2, s3, ⟨c1, c2, c3, c4⟩, s5, s6⟩ := h.stage
  refine ⟨.taken u n, inv_step h (fun j hj => upd_ne _ _ hj) rfl (locks_keep (σ := σ) h rfl) ?_ ?_
    (chain_upd ch) ⟨s1, rfl, ?_, ⟨c1, c2, c3, ?_⟩, ?_, s6, .inl ⟨?_, s5⟩⟩ ?_ ?_
    (speeds_keep ?_ rfl rfl)⟩
  · intro j hj f hh
    have no : ¬(solo = true ∧ j = .user 0) := by
      rintro ⟨e1, e2⟩
      exact hj (e2.trans (role_solo e1 ro).symm)
    cases f with
    | sure => exact hh
    | ready => exact absurd hh.1 no
    | valid => exact absurd hh.1 no
    | either =>
      rcases hh with hh | hh
      · exact .inl hh
      · exact absurd hh.1 no
    | free => exact hh
  · intro x hx
    simp only [LState.afterGet, List.mem_filter] at hx
    have hi := h.items i x hx.1
    cases x with
    | know f =>
      cases f with
      | sure => exact hi
      | ready => cases hx.2
      | valid => cases hx.2
      | either =>
        have e : Item.know .sure ∈ (al i).facts := by simpa [LState.keepGet] using hx.2
        exact .inl (h.items i _ e)
      | free => exact hi
    | reg r v f =>
      cases f with
      | sure => exact hi
      | ready => cases hx.2
      | valid => cases hx.2
      | either =>
        have e : Item.reg r v .sure ∈ (al i).facts := by simpa [LState.keepGet] using hx.2
        exact fun er => .inl (h.items i _ e er)
      | free => exact hi
  · intro j hj
    rw [upd_ne _ _ (by rw [hu]; exact hj)]
    exact s3 j
  · show takenPlans (.takenOver n :: σ.log) = _
    rw [List.range_succ, ← c4]
    simp [takenPlans]
  · show upd σ.got i n (.user u) = n
    rw [hu, upd_self]
  · rw [← hu, upd_self]
  · intro m hm
    rw [hu] at hm
    cases hm
  · have hc : ∀ j, (al j).clean = false := by
      intro j
      by_contra e
      have e' : (al j).clean = true := by simpa using e
      have := (h.scratch.2 j e').1
      rw [s3] at this
      cases this
    have ht : σ.flag .fromScratch = false → σ.traj ≠ none := by
      intro e
      rcases h.scratch.1 e with e | ⟨u', e⟩
      · exact e
      · rw [s3] at e
        cases e
    refine ⟨fun e => .inl (ht e), fun j hj => ?_⟩
    by_cases e : j = i
    · subst e
      rw [upd_self]
      exact ⟨rfl, ht⟩
    · rw [upd_ne _ _ e, hc] at hj
      cases hj
  · exact h.speeds

/-- What computations do keeps the rules. -/
theorem chain_compute : Chain solo .comp .startComp [computeTrajectory] := by
  have : (post solo .comp .startComp computeTrajectory).any
      (fun a => decide (a.held = [] ∧ a.phase = .idle ∧ a.spd = none)) = true := by
    cases solo <;> decide +kernel
  rw [Option.any_eq_true_iff_get] at this
  obtain ⟨h1, h2⟩ := this
  simp only [decide_eq_true_eq] at h2
  exact .cons (post_sound _ (Option.some_get h1).symm) (.nil h2.1 h2.2.1 h2.2.2)

theorem inv_launch (h : Inv solo σ al st) (hk : σ.code i = .act .launch :: k)
    (hp : (al i).phase = .committed) (ch : Chain solo (role solo i) { al i with phase := .idle } k) :
    ∃ al' st', Inv solo { σ with
      fut := .pending σ.launched
      launched := σ.launched + 1
      code := upd (upd σ.code i k) (.comp σ.launched) [computeTrajectory]
      log := .started σ.launched :: σ.log } al' st' := by
  obtain ⟨hst, hw⟩ := stage_committed h.stage hp
  subst hst hw
  obtain ⟨s1, s2, s3, s4, ⟨c1, c2, c3, c4⟩, s5⟩ := h.stage
  have hc0 : σ.code (.comp σ.launched) = [] := h.idle _ (s4 _ (by intro e; cases e))
  have hb : (al (.comp σ.launched)).held = [] ∧ (al (.comp σ.launched)).spd = none := by
    have := h.code (.comp σ.launched)
    rw [hc0] at this
    cases this with
    | nil a b c => exact ⟨a, c⟩
  have hne : (Tid.worker) ≠ .comp σ.launched := by intro e; cases e
  let al' := upd (upd al .worker { al .worker with phase := .idle }) (.comp σ.launched) .startComp
  have held : ∀ j, (al' j).held = (al j).held := by
    intro j
    by_cases e : j = .comp σ.launched
    · subst e
      simp only [al', upd_self]
      exact hb.1.symm
    · simp only [al', upd_ne _ _ e]
      exact keep (g := LState.held) (al := al) (b := { al .worker with phase := .idle }) rfl j
  have spd : ∀ j, (al' j).spd = (al j).spd := by
    intro j
    by_cases e : j = .comp σ.launched
    · subst e
      simp only [al', upd_self]
      exact hb.2.symm
    · simp only [al', upd_ne _ _ e]
      exact keep (g := LState.spd) (al := al) (b := { al .worker with phase := .idle }) rfl j
  have clean : ∀ j, (al j).clean = false := by
    intro j
    by_contra e
    have e' : (al j).clean = true := by simpa using e
    have hg := (h.scratch.2 j e').1
    by_cases ej : j = .worker
    · subst ej
      rw [s3] at hg
      cases hg
    · rw [s4 j ej] at hg
      cases hg
  have clean' : ∀ j, (al' j).clean = false := by
    intro j
    by_cases e : j = .comp σ.launched
    · subst e
      simp only [al', upd_self]
      rfl
    · simp only [al', upd_ne _ _ e]
      rw [keep (g := LState.clean) (al := al) (b := { al .worker with phase := .idle }) rfl j]
      exact clean j
  refine ⟨al', .pending σ.launched, ?_, ?_, ?_, ⟨s1, rfl, ?_, ?_, ⟨rfl, ?_, ?_, ?_⟩, ?_⟩, ?_, ?_, ?_⟩
  · simp only [held]
    exact h.locks
  · intro j x hx
    have hx' : x ∈ (al j).facts := by
      by_cases e : j = .comp σ.launched
      · subst e
        simp only [al', upd_self] at hx
        cases hx
      · simp only [al', upd_ne _ _ e] at hx
        rwa [keep (g := LState.facts) (al := al) (b := { al .worker with phase := .idle }) rfl j] at hx
    refine item_mono ?_ (h.items j x hx')
    intro f hh
    cases f with
    | sure => exact hh
    | ready =>
      obtain ⟨_, n, e⟩ := hh
      rw [s2] at e
      cases e
    | valid => exact absurd s2 hh.2
    | either =>
      rcases hh with hh | ⟨_, n, e⟩
      · exact .inl hh
      · rw [s2] at e
        cases e
    | free => exact hh
  · intro j
    show Chain solo (role solo j) (al' j) (upd (upd σ.code .worker k) (.comp σ.launched) [computeTrajectory] j)
    by_cases e : j = .comp σ.launched
    · subst e
      simp only [al', upd_self]
      exact chain_compute
    · simp only [al', upd_ne _ _ e]
      by_cases e' : j = .worker
      · subst e'
        simp only [upd_self]
        exact ch
      · simp only [upd_ne _ _ e']
        exact h.code j
  · simp only [al', upd_self]
    rfl
  · intro j hj
    simp only [al', upd_ne _ _ hj]
    by_cases e' : j = .worker
    · subst e'
      simp only [upd_self]
    · simp only [upd_ne _ _ e']
      exact s4 j e'
  · show startedPlans (.started σ.launched :: σ.log) = _
    rw [List.range_succ, ← c2]
    simp [startedPlans]
  · exact c3
  · exact c4
  · exact s5
  · intro n hn
    show upd (upd σ.code .worker k) (.comp σ.launched) [computeTrajectory] (.comp n) = []
    by_cases e : Tid.comp n = .comp σ.launched
    · rw [e] at hn
      simp only [al', upd_self] at hn
      cases hn
    · rw [upd_ne _ _ e, upd_ne _ _ (by intro e; cases e)]
      exact h.idle n (s4 _ (by intro e; cases e))
  · refine ⟨fun e => ?_, fun j hj => ?_⟩
    · rcases h.scratch.1 e with e | ⟨u, e⟩
      · exact .inl e
      · rw [s4 _ (by intro e; cases e)] at e
        cases e
    · rw [clean'] at hj
      cases hj
  · obtain ⟨p1, p2, p3, p4⟩ := h.speeds
    refine ⟨p1, p2, fun j x hj => ?_, fun hj => ?_⟩
    · rw [spd] at hj
      rw [held]
      exact p3 j x hj
    · simp only [spd] at hj
      exact p4 hj

theorem inv_complete (h : Inv solo σ al st) {n : Nat} (hi : i = .comp n)
    (hp : (al i).phase = .working) (hh : (al i).held = []) (hs : (al i).spd = none) :
    ∃ st', Inv solo { σ with
      fut := if σ.fut = .pending n then .ready n else σ.fut
      doneVer := σ.planVer
      code := upd σ.code i []
      log := .finished n :: σ.log } (upd al i { al i with phase := .idle }) st' := by
  obtain ⟨m, hst, hm⟩ := stage_working h.stage hp
  rw [hi] at hm
  cases hm
  subst hst hi
  obtain ⟨s1, s2, s3, s4, ⟨c1, c2, c3, c4⟩, s5⟩ := h.stage
  have hfut : (if σ.fut = .pending n then Fut.ready n else σ.fut) = .ready n := by rw [if_pos s2]
  rw [hfut]
  have idle : ∀ j, (upd al (.comp n) { al (.comp n) with phase := .idle } j).phase = .idle := by
    intro j
    by_cases e : j = .comp n
    · subst e
      rw [upd_self]
    · rw [upd_ne _ _ e]
      exact s4 j e
  have mono : ∀ j f, Holds solo j σ.traj σ.fut (σ.flag .computing) f →
      Holds solo j σ.traj (.ready n) (σ.flag .computing) f := by
    intro j f hh
    cases f with
    | sure => exact hh
    | ready => exact ⟨hh.1, n, rfl⟩
    | valid => exact ⟨hh.1, by intro e; cases e⟩
    | either =>
      rcases hh with hh | hh
      · exact .inl hh
      · exact .inr ⟨hh.1, n, rfl⟩
    | free => exact hh
  refine ⟨.ready n, inv_step h (fun j hj => upd_ne _ _ hj) rfl (locks_keep (σ := σ) h rfl)
    (fun j _ f => mono j f) (fun x hx => item_mono (mono _) (h.items _ x hx))
    (chain_upd (.nil hh rfl hs)) ⟨s1, rfl, idle, ⟨c1, c2, ?_, c4⟩, s5, rfl⟩
    (fun m hm _ => upd_self _ _ _) ⟨fun e => ?_, fun j hj => ?_⟩
    (speeds_keep h.speeds rfl rfl)⟩
  · show finishedPlans (.finished n :: σ.log) = _
    rw [List.range_succ, ← c3]
    simp [finishedPlans]
  · rcases h.scratch.1 e with e | ⟨u, e⟩
    · exact .inl e
    · rw [s4 _ (by intro e; cases e)] at e
      cases e
  · have kc := keep (g := LState.clean) (al := al) (i := .comp n)
      (b := { al (.comp n) with phase := .idle }) rfl
    rw [kc] at hj
    have hg := (h.scratch.2 j hj).1
    by_cases e : j = .comp n
    · subst e
      rw [s3] at hg
      cases hg
    · rw [s4 j e] at hg
      cases hg

theorem inv_setTraj (h : Inv solo σ al st) (hk : σ.code i = .act .setTraj :: k)
    (hp : (al i).phase = .got)
    (ch : Chain solo (role solo i)
      { (al i).learn [.sure, .either] with phase := .gotDone, clean := false } k) :
    Inv solo { σ with code := upd σ.code i k, traj := some (σ.got i) }
      (upd al i { (al i).learn [.sure, .either] with phase := .gotDone, clean := false }) st := by
  obtain ⟨u, n, hst, hu⟩ := stage_taking h.stage (i := i) (by rw [hp]; rfl)
  subst hst
  obtain ⟨s1, s2, s3, s4, s5, s6, s7⟩ := h.stage
  have mono : ∀ j f, Holds solo j σ.traj σ.fut (σ.flag .computing) f →
      Holds solo j (some (σ.got i)) σ.fut (σ.flag .computing) f := by
    intro j f hh
    cases f with
    | sure => simp [Holds]
    | either => left; simp
    | _ => exact hh
  refine inv_step h (fun j hj => upd_ne _ _ hj) rfl (locks_keep (σ := σ) h rfl) (fun j _ f => mono j f) ?_
    (chain_upd ch) ⟨s1, s2, ?_, s4, s5, s6, .inr ⟨?_, ?_⟩⟩ ?_ ⟨fun _ => .inl (by simp), ?_⟩
    (speeds_keep h.speeds rfl rfl)
  · intro x hx
    rcases (LState.mem_learn (a := al i)).1 hx with ⟨f, hf, rfl⟩ | hx
    · simp only [List.mem_cons, List.not_mem_nil, or_false] at hf
      rcases hf with rfl | rfl
      · simp [ItemHolds, Holds]
      · left; simp
    · exact item_mono (mono i) (h.items i x hx)
  · intro j hj
    rw [upd_ne _ _ (by rw [hu]; exact hj)]
    exact s3 j hj
  · rw [← hu, upd_self]
  · show some (σ.got i) = some n
    rw [hu, s5]
  · intro m hm
    rw [hu] at hm
    cases hm
  · intro j hj
    by_cases e : j = i
    · subst e
      rw [upd_self] at hj
      cases hj
    · rw [upd_ne _ _ e] at hj
      have := (h.scratch.2 j hj).1
      rw [s3 j (by rw [← hu]; exact e)] at this
      cases this

/-! ### The speed -/

theorem stage_speed {p n : Nat} {e : Event} (h : st.ok σ al)
    (he : startedPlans (e :: σ.log) = startedPlans σ.log ∧
      finishedPlans (e :: σ.log) = finishedPlans σ.log ∧ takenPlans (e :: σ.log) = takenPlans σ.log)
    (bp : b.phase = (al i).phase) :
    st.ok { σ with code := upd σ.code i k, pSpeed := p, nSpeed := n, log := e :: σ.log }
      (upd al i b) := by
  have kp := keep (g := LState.phase) (al := al) bp
  obtain ⟨e1, e2, e3⟩ := he
  have hc : ∀ {a b c : Nat}, Counts σ a b c →
      Counts { σ with code := upd σ.code i k, pSpeed := p, nSpeed := n, log := e :: σ.log } a b c :=
    fun ⟨h1, h2, h3, h4⟩ => ⟨h1, e1.trans h2, e2.trans h3, e3.trans h4⟩
  cases st with
  | off =>
    obtain ⟨h1, h2, h3, h4, h5⟩ := h
    exact ⟨h1, h2, fun j => (kp j).trans (h3 j), hc h4, h5⟩
  | prep =>
    obtain ⟨h1, h2, h3, h5, h4, h6⟩ := h
    exact ⟨h1, h2, (kp _).trans h3, fun j hj => (kp j).trans (h5 j hj), hc h4, h6⟩
  | pending n =>
    obtain ⟨h1, h2, h3, h5, h4, h6⟩ := h
    exact ⟨h1, h2, (kp _).trans h3, fun j hj => (kp j).trans (h5 j hj), hc h4, h6⟩
  | ready n =>
    obtain ⟨h1, h2, h3, h4, h5⟩ := h
    exact ⟨h1, h2, fun j => (kp j).trans (h3 j), hc h4, h5⟩
  | taken u n =>
    obtain ⟨h1, h2, h3, h4, h5, h6, h7⟩ := h
    refine ⟨h1, h2, fun j hj => (kp j).trans (h3 j hj), hc h4, h5, h6, ?_⟩
    rw [kp]
    exact h7

theorem inv_speedP (h : Inv solo σ al st) {x : Nat} (hk : σ.code i = .act (.speedP x) :: k)
    (hm : Mutex.parameters ∈ (al i).held)
    (ch : Chain solo (role solo i) { al i with spd := some x } k) :
    Inv solo { σ with code := upd σ.code i k, pSpeed := x, log := .speedSet x :: σ.log }
      (upd al i { al i with spd := some x }) st := by
  refine inv_step h (fun j hj => upd_ne _ _ hj) rfl (locks_keep (σ := σ) h rfl) (fun _ _ _ x => x) (h.items i)
    (chain_upd ch) (stage_speed (n := σ.nSpeed) h.stage ⟨rfl, rfl, rfl⟩ rfl)
    (fun n hn e => absurd e (not_idle h hk n hn)) (scratch_keep h.scratch rfl rfl)
    ⟨rfl, h.speeds.2.1, fun j y hj => ?_, fun hj => ?_⟩
  · by_cases e : j = i
    · subst e
      rw [upd_self] at hj ⊢
      exact ⟨hm, Option.some.inj hj⟩
    · rw [upd_ne _ _ e] at hj
      exact absurd (held_unique h (h.speeds.2.2.1 j y hj).1 hm) e
  · have := hj i
    rw [upd_self] at this
    cases this

theorem inv_speedN (h : Inv solo σ al st) {x : Nat} (hk : σ.code i = .act (.speedN x) :: k)
    (hs : (al i).spd = some x) (ch : Chain solo (role solo i) { al i with spd := none } k) :
    Inv solo { σ with code := upd σ.code i k, nSpeed := x } (upd al i { al i with spd := none }) st := by
  obtain ⟨p1, p2, p3, p4⟩ := h.speeds
  have kp := keep (g := LState.phase) (al := al) (i := i) (b := { al i with spd := none }) rfl
  refine inv_step h (fun j hj => upd_ne _ _ hj) rfl (locks_keep (σ := σ) h rfl) (fun _ _ _ x => x) (h.items i)
    (chain_upd ch) ?_
    (fun n hn e => absurd e (not_idle h hk n hn)) (scratch_keep h.scratch rfl rfl)
    ⟨p1, p2, fun j y hj => ?_, fun _ => (p3 i x hs).2.symm⟩
  · have hst := h.stage
    cases st with
    | off =>
      obtain ⟨h1, h2, h3, h4⟩ := hst
      exact ⟨h1, h2, fun j => (kp j).trans (h3 j), h4⟩
    | prep =>
      obtain ⟨h1, h2, h3, h5, h4⟩ := hst
      exact ⟨h1, h2, (kp _).trans h3, fun j hj => (kp j).trans (h5 j hj), h4⟩
    | pending n =>
      obtain ⟨h1, h2, h3, h5, h4⟩ := hst
      exact ⟨h1, h2, (kp _).trans h3, fun j hj => (kp j).trans (h5 j hj), h4⟩
    | ready n =>
      obtain ⟨h1, h2, h3, h4⟩ := hst
      exact ⟨h1, h2, fun j => (kp j).trans (h3 j), h4⟩
    | taken u n =>
      obtain ⟨h1, h2, h3, h4, h5, h6, h7⟩ := hst
      refine ⟨h1, h2, fun j hj => (kp j).trans (h3 j hj), h4, h5, h6, ?_⟩
      rw [kp]
      exact h7
  · by_cases e : j = i
    · subst e
      rw [upd_self] at hj
      cases hj
    · rw [upd_ne _ _ e] at hj ⊢
      exact p3 j y hj

/-- The holder of the mutex knows that no speed is half set. -/
theorem speeds_equal (h : Inv solo σ al st) (hm : Mutex.parameters ∈ (al i).held)
    (hs : (al i).spd = none) : σ.nSpeed = σ.pSpeed := by
  obtain ⟨p1, p2, p3, p4⟩ := h.speeds
  refine p4 fun j => ?_
  by_cases e : j = i
  · rw [e]
    exact hs
  · by_contra hn
    obtain ⟨x, hx⟩ := Option.ne_none_iff_exists'.1 hn
    exact e (held_unique h (p3 j x hx).1 hm)

end Verif.Conc
