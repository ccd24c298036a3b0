import Verif.Lemmas.ConcurrencyScript

/-!
# Reports of changes under interleaving (C60)
-/
namespace Verif.Conc

/-- No statement of a report. -/
def Act.clean : Act → Bool
  | .report _ => false
  | .setFlag .regenerated false => false
  | _ => true

/-- No statement of a report. -/
def Prog.clean : Prog → Bool
  | .skip => true
  | .act a => a.clean
  | .seq p q => p.clean && q.clean
  | .br _ p q => p.clean && q.clean
  | .loopWhile _ p q => p.clean && q.clean
  | .many p => p.clean

theorem clean_not_reports (p : Prog) (h : p.clean = true) : p.reports = false := by
  induction p with
  | skip => rfl
  | act a => cases a <;> first | rfl | simp [Prog.clean, Act.clean] at h
  | seq p q hp hq => simp only [Prog.clean, Bool.and_eq_true] at h; simp [Prog.reports, hp h.1, hq h.2]
  | br r p q hp hq => simp only [Prog.clean, Bool.and_eq_true] at h; simp [Prog.reports, hp h.1, hq h.2]
  | loopWhile r p q hp hq => simp only [Prog.clean, Bool.and_eq_true] at h; simp [Prog.reports, hp h.1, hq h.2]
  | many p hp => exact hp h

theorem modifyWaypoints_clean (ks : List Nat) : (modifyWaypoints ks).clean = true := by
  induction ks with
  | nil => rfl
  | cons k ks ih => simp only [modifyWaypoints, Prog.clean, ih, Bool.and_true]; rfl

theorem api_clean (a : Api) (h : a ≠ .getWasTrajectoryRegenerated) : a.prog.clean = true := by
  cases a with
  | modifyWaypoints ks => exact modifyWaypoints_clean ks
  | getWasTrajectoryRegenerated => exact absurd rfl h
  | _ => rfl

/-- All programs on a stack are clean. -/
def CleanCode (l : List Prog) : Prop := ∀ p ∈ l, p.clean = true

/-- The second and third statements of a report. -/
abbrev lower : Prog := fl .regenerated false
abbrev answer : Prog := .act (.report .cond)

/-- Where a thread is with respect to reports. -/
inductive Pos
  | out | before | read | lowered
  deriving DecidableEq

/-- The code of a thread at a position. -/
def AtPos (code : List Prog) : Pos → Prop
  | .out => CleanCode code
  | .before => code = [Api.prog .getWasTrajectoryRegenerated] ∨ code = [ld .cond (.flag .regenerated), lower ;; answer]
  | .read => code = [lower ;; answer] ∨ code = [lower, answer]
  | .lowered => code = [answer]

theorem atPos_out {l : List Prog} {p : Pos} (h : AtPos l p) (hr : ∀ q ∈ l, q.reports = false) : p = .out := by
  cases p with
  | out => rfl
  | before => rcases h with rfl | rfl <;> simp [Prog.reports, Api.prog] at hr
  | read => rcases h with rfl | rfl <;> simp [Prog.reports] at hr
  | lowered => subst h; simp [Prog.reports] at hr

theorem out_not_reporting {l : List Prog} (h : AtPos l .out) : ∀ q ∈ l, q.reports = false := fun q hq => clean_not_reports q (h q hq)

/-- The invariant. -/
structure RInv (σ : State) (pos : Tid → Pos) : Prop where
  at_ : ∀ i, AtPos (σ.code i) (pos i)
  one : ∀ i j, pos i ≠ .out → pos j ≠ .out → i = j
  right : ReportsRight σ.log
  flag : (∀ i, pos i = .out ∨ pos i = .before) → σ.flag .regenerated = changedSince σ.log
  cond : ∀ i, pos i = .read ∨ pos i = .lowered → σ.regs i .cond = changedSince σ.log
  low : ∀ i, pos i = .lowered → σ.flag .regenerated = false

theorem rinv_init : RInv .init fun _ => .out where
  at_ := by
    intro i p hp
    by_cases hi : i = .worker
    · subst hi
      simp only [State.init, if_true, List.mem_singleton] at hp
      subst hp
      decide +kernel
    · simp [State.init, hi] at hp
  one := fun i j h => absurd rfl h
  right := trivial
  flag := fun _ => rfl
  cond := fun i h => by rcases h with h | h <;> cases h
  low := fun i h => by cases h

theorem changedSince_other {e : Event} {l : List Event} (h : e ≠ .changed) (h' : ∀ b, e ≠ .reported b) : changedSince (e :: l) = changedSince l := by
  cases e <;> first | rfl | exact absurd rfl h | exact absurd rfl (h' _)

theorem reportsRight_other {e : Event} {l : List Event} (h' : ∀ b, e ≠ .reported b) : ReportsRight (e :: l) ↔ ReportsRight l := by
  cases e <;> first | rfl | exact absurd rfl (h' _)

/-- What a clean step of thread `i` changes. -/
structure CleanStep (σ τ : State) (i : Tid) : Prop where
  code_i : CleanCode (τ.code i)
  code : ∀ j, j ≠ i → τ.code j = σ.code j ∨ ((∃ n, j = .comp n) ∧ CleanCode (τ.code j))
  regs : ∀ j, j ≠ i → τ.regs j = σ.regs j
  log : (τ.log = .changed :: σ.log ∧ τ.flag .regenerated = true) ∨
    (changedSince τ.log = changedSince σ.log ∧ (ReportsRight τ.log ↔ ReportsRight σ.log) ∧ τ.flag .regenerated = σ.flag .regenerated)

theorem upd_self {α β : Type} [DecidableEq α] (f : α → β) (a : α) (b : β) : upd f a b a = b := by simp [upd]

theorem upd_other {α β : Type} [DecidableEq α] (f : α → β) {a x : α} (b : β) (h : x ≠ a) : upd f a b x = f x := by simp [upd, h]

/-- A step that changes only the code of its own thread (and what does not matter here). -/
theorem cleanStep_same {σ τ : State} {i : Tid} (h1 : CleanCode (τ.code i)) (h2 : ∀ j, j ≠ i → τ.code j = σ.code j) (h3 : ∀ j, j ≠ i → τ.regs j = σ.regs j)
    (h4 : τ.log = σ.log) (h5 : τ.flag = σ.flag) : CleanStep σ τ i :=
  ⟨h1, fun j hj => .inl (h2 j hj), h3, .inr ⟨by rw [h4], by rw [h4], by rw [h5]⟩⟩

/-- The same with an event other than a change and a report. -/
theorem cleanStep_event {σ τ : State} {i : Tid} (h1 : CleanCode (τ.code i)) (h2 : ∀ j, j ≠ i → τ.code j = σ.code j ∨ ((∃ n, j = .comp n) ∧ CleanCode (τ.code j)))
    (h3 : ∀ j, j ≠ i → τ.regs j = σ.regs j) (e : Event) (he : e ≠ .changed) (he' : ∀ b, e ≠ .reported b) (h4 : τ.log = e :: σ.log) (h5 : τ.flag = σ.flag) : CleanStep σ τ i :=
  ⟨h1, h2, h3, .inr ⟨by rw [h4, changedSince_other he he'], by rw [h4, reportsRight_other he'], by rw [h5]⟩⟩

theorem stepAct_clean {σ τ : State} {i : Tid} {c : Bool} {a : Act} {k : List Prog} (hcode : CleanCode (σ.code i)) (ha : a.clean = true) (hk : CleanCode k)
    (h : stepAct σ i c a k = some τ) : CleanStep σ τ i := by
  have bad : ∀ {τ : State}, some { σ with ub := true } = some τ → CleanStep σ τ i := by
    intro τ h
    rw [← Option.some.inj h]
    exact cleanStep_same hcode (fun _ _ => rfl) (fun _ _ => rfl) rfl rfl
  have hu : ∀ j, j ≠ i → upd σ.code i k j = σ.code j := fun j hj => upd_other _ _ hj
  have hs : CleanCode (upd σ.code i k i) := by rw [upd_self]; exact hk
  unfold stepAct at h
  cases a with
  | lock m =>
    simp only at h
    split at h
    · rw [← Option.some.inj h]; exact cleanStep_same hs hu (fun _ _ => rfl) rfl rfl
    · cases h
  | unlock m =>
    simp only at h
    split at h
    · rw [← Option.some.inj h]; exact cleanStep_same hs hu (fun _ _ => rfl) rfl rfl
    · exact bad h
  | read s v => rw [← Option.some.inj h]; exact cleanStep_same hs hu (fun _ _ => rfl) rfl rfl
  | write v => rw [← Option.some.inj h]; exact cleanStep_same hs hu (fun _ _ => rfl) rfl rfl
  | load r s =>
    simp only at h
    split at h
    · rw [← Option.some.inj h]; exact cleanStep_same hs hu (fun j hj => upd_other _ _ hj) rfl rfl
    · exact bad h
  | const r b => rw [← Option.some.inj h]; exact cleanStep_same hs hu (fun j hj => upd_other _ _ hj) rfl rfl
  | setFlag f b =>
    rw [← Option.some.inj h]
    refine ⟨hs, fun j hj => .inl (hu j hj), fun _ _ => rfl, ?_⟩
    by_cases hf : f = .regenerated
    · subst hf
      cases b with
      | false => simp [Act.clean] at ha
      | true => exact .inl ⟨by simp, by simp [upd]⟩
    · have hf' : ¬(f = .regenerated ∧ b = true) := fun h => hf h.1
      refine .inr ⟨by simp only [if_neg hf'], by simp only [if_neg hf'], ?_⟩
      exact upd_other _ _ (fun e => hf e.symm)
  | futWait =>
    simp only at h
    split at h
    · exact bad h
    · cases h
    · rw [← Option.some.inj h]; exact cleanStep_same hs hu (fun _ _ => rfl) rfl rfl
  | futGet =>
    simp only at h
    split at h
    · exact bad h
    · cases h
    · rw [← Option.some.inj h]
      exact cleanStep_event hs (fun j hj => .inl (hu j hj)) (fun _ _ => rfl) _ (by simp) (by simp) rfl rfl
  | launch =>
    have key : ∀ {τ : State}, some ({ σ with
        fut := .pending σ.launched
        launched := σ.launched + 1
        code := upd (upd σ.code i k) (.comp σ.launched) [computeTrajectory]
        log := .started σ.launched :: σ.log } : State) = some τ → CleanStep σ τ i := by
      intro τ h
      rw [← Option.some.inj h]
      have hc : CleanCode [computeTrajectory] := by
        intro p hp
        rw [List.mem_singleton.mp hp]; decide +kernel
      refine cleanStep_event ?_ ?_ (fun _ _ => rfl) _ (by simp) (by simp) rfl rfl
      · by_cases hi : i = .comp σ.launched
        · simp only [hi, upd_self]; exact hc
        · simp only [upd_other _ _ hi]; exact hs
      · intro j hj
        by_cases hi : j = .comp σ.launched
        · right
          refine ⟨⟨_, hi⟩, ?_⟩
          simp only [hi, upd_self]; exact hc
        · left
          simp only [upd_other _ _ hi]; exact hu j hj
    simp only at h
    split at h
    · cases h
    · exact key h
  | complete =>
    simp only at h
    split at h
    · rw [← Option.some.inj h]
      exact cleanStep_event (by simp only [upd_self]; intro p hp; cases hp) (fun j hj => .inl (upd_other _ _ hj)) (fun _ _ => rfl) _ (by simp) (by simp) rfl rfl
    · exact bad h
  | setTraj => rw [← Option.some.inj h]; exact cleanStep_same hs hu (fun _ _ => rfl) rfl rfl
  | deref =>
    simp only at h
    split at h
    · exact bad h
    · rw [← Option.some.inj h]; exact cleanStep_same hs hu (fun _ _ => rfl) rfl rfl
  | join =>
    simp only at h
    split at h
    · rw [← Option.some.inj h]; exact cleanStep_same hs hu (fun _ _ => rfl) rfl rfl
    · cases h
  | dropFuture =>
    simp only at h
    split at h
    · cases h
    · rw [← Option.some.inj h]; exact cleanStep_same hs hu (fun _ _ => rfl) rfl rfl
  | pushMod n => rw [← Option.some.inj h]; exact cleanStep_event hs (fun j hj => .inl (hu j hj)) (fun _ _ => rfl) _ (by simp) (by simp) rfl rfl
  | takeMods => rw [← Option.some.inj h]; exact cleanStep_event hs (fun j hj => .inl (hu j hj)) (fun _ _ => rfl) _ (by simp) (by simp) rfl rfl
  | clearMods => rw [← Option.some.inj h]; exact cleanStep_event hs (fun j hj => .inl (hu j hj)) (fun _ _ => rfl) _ (by simp) (by simp) rfl rfl
  | speedP x => rw [← Option.some.inj h]; exact cleanStep_event hs (fun j hj => .inl (hu j hj)) (fun _ _ => rfl) _ (by simp) (by simp) rfl rfl
  | speedN x => rw [← Option.some.inj h]; exact cleanStep_same hs hu (fun _ _ => rfl) rfl rfl
  | speedPN => rw [← Option.some.inj h]; exact cleanStep_same hs hu (fun _ _ => rfl) rfl rfl
  | speedNP => rw [← Option.some.inj h]; exact cleanStep_same hs hu (fun _ _ => rfl) rfl rfl
  | speedOut => rw [← Option.some.inj h]; exact cleanStep_event hs (fun j hj => .inl (hu j hj)) (fun _ _ => rfl) _ (by simp) (by simp) rfl rfl
  | report r => simp [Act.clean] at ha

theorem stepProg_clean {σ τ : State} {i : Tid} {c : Bool} {p : Prog} {k : List Prog} (hcode : CleanCode (σ.code i)) (hp : p.clean = true) (hk : CleanCode k)
    (h : stepProg σ i c p k = some τ) : CleanStep σ τ i := by
  have key : ∀ l : List Prog, CleanCode l → ∀ {τ : State}, some { σ with code := upd σ.code i l } = some τ → CleanStep σ τ i := by
    intro l hl τ h
    rw [← Option.some.inj h]
    exact cleanStep_same (by simp only [upd_self]; exact hl) (fun j hj => upd_other _ _ hj) (fun _ _ => rfl) rfl rfl
  have hcons : ∀ {p : Prog} {l : List Prog}, p.clean = true → CleanCode l → CleanCode (p :: l) := by
    intro p l hp hl q hq
    rcases List.mem_cons.mp hq with rfl | hq
    · exact hp
    · exact hl q hq
  unfold stepProg at h
  cases p with
  | skip => exact key _ hk h
  | act a => exact stepAct_clean hcode hp hk h
  | seq p q =>
    simp only [Prog.clean, Bool.and_eq_true] at hp
    exact key _ (hcons hp.1 (hcons hp.2 hk)) h
  | br r p q =>
    simp only [Prog.clean, Bool.and_eq_true] at hp
    refine key _ (hcons ?_ hk) h
    split
    · exact hp.1
    · exact hp.2
  | loopWhile r p q =>
    have hp' := hp
    simp only [Prog.clean, Bool.and_eq_true] at hp'
    refine key _ (hcons hp'.1 (hcons ?_ hk)) h
    simp [Prog.clean, hp'.1, hp'.2]
  | many p =>
    refine key _ ?_ h
    split
    · exact hcons hp (hcons hp hk)
    · exact hk

/-- The invariant with the positions it is about. -/
def RInv' (σ : State) : Prop := ∃ pos, RInv σ pos ∧ ∀ i, pos i ≠ .out → ∃ n, i = .user n

theorem rinv_step {σ τ : State} {i : Tid} {ch : Choice} (hi : RInv' σ) (h : step σ i ch = some τ)
    (hq : ch = .call .getWasTrajectoryRegenerated ∨ τ.log = .changed :: σ.log → ∀ j, ¬Reporting σ j) : RInv' τ := by
  obtain ⟨pos, inv, husr⟩ := hi
  have hout : (∀ j, ¬Reporting σ j) → ∀ j, pos j = .out := by
    intro hn j
    refine atPos_out (inv.at_ j) fun q hq => ?_
    cases hb : q.reports with
    | false => rfl
    | true => exact absurd ⟨q, hq, hb⟩ (hn j)
  unfold step at h
  split at h
  · cases h
  split at h
  · -- a call
    rename_i a hcode
    split at h
    · rename_i n
      rw [← Option.some.inj h]
      by_cases ha : a = .getWasTrajectoryRegenerated
      · subst ha
        have ho := hout (hq (.inl rfl))
        refine ⟨fun j => if j = .user n then .before else pos j, ⟨?_, ?_, inv.right, ?_, ?_, ?_⟩, ?_⟩
        · intro j
          by_cases hj : j = .user n
          · simp only [hj, if_true, upd_self]; exact .inl rfl
          · simp only [hj, if_false, upd_other _ _ hj]; exact inv.at_ j
        · intro j j' h1 h2
          have : ∀ x, (if x = Tid.user n then Pos.before else pos x) ≠ .out → x = .user n := by
            intro x hx
            refine Classical.byContradiction fun hne => ?_
            rw [if_neg hne] at hx
            exact hx (ho x)
          rw [this j h1, this j' h2]
        · intro _
          exact inv.flag fun j => .inl (ho j)
        · intro j hj
          by_cases hje : j = .user n
          · simp [hje] at hj
          · rw [if_neg hje, ho j] at hj; simp at hj
        · intro j hj
          by_cases hje : j = .user n
          · simp [hje] at hj
          · rw [if_neg hje, ho j] at hj; cases hj
        · intro j hj
          by_cases hje : j = .user n
          · exact ⟨n, hje⟩
          · simp only [hje, if_false] at hj; exact husr j hj
      · have hpos : pos (.user n) = .out := atPos_out (inv.at_ _) (by rw [hcode]; intro q hq; cases hq)
        refine ⟨pos, ⟨?_, inv.one, inv.right, inv.flag, inv.cond, inv.low⟩, husr⟩
        intro j
        by_cases hj : j = .user n
        · subst hj
          rw [hpos]
          simp only [upd_self]
          intro q hq
          rw [List.mem_singleton.mp hq]
          exact api_clean a ha
        · simp only [upd_other _ _ hj]; exact inv.at_ j
    · cases h
  · -- a step of a program
    rename_i p k c hcode
    have hat := inv.at_ i
    have hother : ∀ j, pos j = .out → ∀ q ∈ σ.code j, q.reports = false := fun j hj => by
      have := inv.at_ j
      rw [hj] at this
      exact out_not_reporting this
    -- only `i` can be inside a report if it is
    have honly : pos i ≠ .out → ∀ j, j ≠ i → pos j = .out := by
      intro h1 j hj
      refine Classical.byContradiction fun h2 => ?_
      exact hj (inv.one j i h2 h1)
    cases hpi : pos i with
    | out =>
      rw [hpi] at hat
      have hcl := hat
      rw [hcode] at hat
      have hs := stepProg_clean hcl (hat p (by simp)) (fun q hq => hat q (by simp [hq])) h
      have hcodes : ∀ j, AtPos (τ.code j) (pos j) := by
        intro j
        by_cases hj : j = i
        · subst hj; rw [hpi]; exact hs.code_i
        · rcases hs.code j hj with e | ⟨⟨n, e⟩, hc⟩
          · rw [e]; exact inv.at_ j
          · have : pos j = .out := by
              refine Classical.byContradiction fun hne => ?_
              obtain ⟨m, hm⟩ := husr j hne
              rw [hm] at e; cases e
            rw [this]; exact hc
      rcases hs.log with ⟨hl, hf⟩ | ⟨hl, hr, hf⟩
      · have ho := hout (hq (.inr hl))
        refine ⟨pos, ⟨hcodes, inv.one, ?_, ?_, ?_, ?_⟩, husr⟩
        · rw [hl, reportsRight_other (by simp)]; exact inv.right
        · intro _; rw [hl, hf]; rfl
        · intro j hj; rw [ho j] at hj; simp at hj
        · intro j hj; rw [ho j] at hj; cases hj
      · refine ⟨pos, ⟨hcodes, inv.one, hr.mpr inv.right, ?_, ?_, ?_⟩, husr⟩
        · intro h; rw [hf, hl]; exact inv.flag h
        · intro j hj
          have hji : j ≠ i := by rintro rfl; rw [hpi] at hj; simp at hj
          rw [hs.regs j hji, hl]; exact inv.cond j hj
        · intro j hj; rw [hf]; exact inv.low j hj
    | before =>
      have hne : pos i ≠ .out := by rw [hpi]; simp
      have ho := honly hne
      rw [hpi] at hat
      have hflag : σ.flag .regenerated = changedSince σ.log := inv.flag fun j => by
        by_cases hj : j = i
        · right; rw [hj, hpi]
        · left; exact ho j hj
      rcases hat with e | e
      · -- the sequence is opened
        rw [hcode] at e
        obtain ⟨rfl, rfl⟩ := List.cons.inj e
        have hτ := Option.some.inj h
        subst hτ
        refine ⟨pos, ⟨?_, inv.one, inv.right, inv.flag, inv.cond, inv.low⟩, husr⟩
        intro j
        by_cases hj : j = i
        · subst hj
          rw [hpi]
          simp only [upd_self]
          exact .inr rfl
        · simp only [upd_other _ _ hj]; exact inv.at_ j
      · -- the flag is read
        rw [hcode] at e
        obtain ⟨rfl, rfl⟩ := List.cons.inj e
        have hτ := Option.some.inj h
        subst hτ
        refine ⟨fun j => if j = i then .read else pos j, ⟨?_, ?_, inv.right, ?_, ?_, ?_⟩, ?_⟩
        · intro j
          by_cases hj : j = i
          · subst hj
            simp only [if_true, upd_self]
            exact .inl rfl
          · simp only [hj, if_false, upd_other _ _ hj]; exact inv.at_ j
        · intro j j' h1 h2
          have : ∀ x, (if x = i then Pos.read else pos x) ≠ .out → x = i := by
            intro x hx
            refine Classical.byContradiction fun hne => ?_
            rw [if_neg hne] at hx
            exact hx (ho x hne)
          rw [this j h1, this j' h2]
        · intro hall
          have := hall i
          simp at this
        · intro j hj
          have hji : j = i := by
            refine Classical.byContradiction fun hne => ?_
            rw [if_neg hne, ho j hne] at hj
            simp at hj
          subst hji
          simp only [upd_self]
          exact hflag
        · intro j hj
          by_cases hji : j = i
          · simp [hji] at hj
          · rw [if_neg hji, ho j hji] at hj; cases hj
        · intro j hj
          by_cases hji : j = i
          · rw [hji]; exact husr i hne
          · simp only [hji, if_false] at hj; exact husr j hj
    | read =>
      have hne : pos i ≠ .out := by rw [hpi]; simp
      have ho := honly hne
      rw [hpi] at hat
      rcases hat with e | e
      · rw [hcode] at e
        obtain ⟨rfl, rfl⟩ := List.cons.inj e
        have hτ := Option.some.inj h
        subst hτ
        refine ⟨pos, ⟨?_, inv.one, inv.right, inv.flag, inv.cond, inv.low⟩, husr⟩
        intro j
        by_cases hj : j = i
        · subst hj
          rw [hpi]
          simp only [upd_self]
          exact .inr rfl
        · simp only [upd_other _ _ hj]; exact inv.at_ j
      · rw [hcode] at e
        obtain ⟨rfl, rfl⟩ := List.cons.inj e
        have hτ := Option.some.inj h
        subst hτ
        have hlog : (if Flag.regenerated = .regenerated ∧ false = true then Event.changed :: σ.log else σ.log) = σ.log := by simp
        refine ⟨fun j => if j = i then .lowered else pos j, ⟨?_, ?_, ?_, ?_, ?_, ?_⟩, ?_⟩
        · intro j
          by_cases hj : j = i
          · subst hj
            simp only [if_true, upd_self]
            rfl
          · simp only [hj, if_false, upd_other _ _ hj]; exact inv.at_ j
        · intro j j' h1 h2
          have : ∀ x, (if x = i then Pos.lowered else pos x) ≠ .out → x = i := by
            intro x hx
            refine Classical.byContradiction fun hne => ?_
            rw [if_neg hne] at hx
            exact hx (ho x hne)
          rw [this j h1, this j' h2]
        · exact inv.right
        · intro hall
          have := hall i
          simp at this
        · intro j hj
          have hji : j = i := by
            refine Classical.byContradiction fun hne => ?_
            rw [if_neg hne, ho j hne] at hj
            simp at hj
          subst hji
          exact inv.cond j (.inl hpi)
        · intro j _
          simp only [upd_self]
        · intro j hj
          by_cases hji : j = i
          · rw [hji]; exact husr i hne
          · simp only [hji, if_false] at hj; exact husr j hj
    | lowered =>
      have hne : pos i ≠ .out := by rw [hpi]; simp
      have ho := honly hne
      rw [hpi] at hat
      have e : σ.code i = [answer] := hat
      rw [hcode] at e
      obtain ⟨rfl, rfl⟩ := List.cons.inj e
      have hτ := Option.some.inj h
      subst hτ
      have hcond := inv.cond i (.inr hpi)
      have hlow := inv.low i hpi
      refine ⟨fun j => if j = i then .out else pos j, ⟨?_, ?_, ⟨hcond, inv.right⟩, ?_, ?_, ?_⟩, ?_⟩
      · intro j
        by_cases hj : j = i
        · subst hj
          simp only [if_true, upd_self]
          intro q hq; cases hq
        · simp only [hj, if_false, upd_other _ _ hj]; exact inv.at_ j
      · intro j j' h1 h2
        by_cases hj : j = i
        · simp [hj] at h1
        · rw [if_neg hj] at h1; exact absurd (ho j hj) h1
      · intro _
        exact hlow
      · intro j hj
        by_cases hji : j = i
        · simp [hji] at hj
        · rw [if_neg hji, ho j hji] at hj; simp at hj
      · intro j hj
        by_cases hji : j = i
        · simp [hji] at hj
        · rw [if_neg hji, ho j hji] at hj; cases hj
      · intro j hj
        by_cases hji : j = i
        · simp [hji] at hj
        · simp only [hji, if_false] at hj; exact husr j hj
  · cases h

theorem reachApart_rinv {σ : State} (h : ReachApart σ) : RInv' σ := by
  induction h with
  | init => exact ⟨_, rinv_init, fun i h => absurd rfl h⟩
  | step _ hs hq ih => exact rinv_step ih hs hq

/-! ### Scripts in which only one user asks for the report -/

theorem stepAct_code_other {σ τ : State} {i j : Tid} {c : Bool} {a : Act} {k : List Prog} (hj : j ≠ i) (h : stepAct σ i c a k = some τ) :
    τ.code j = σ.code j ∨ τ.code j = [computeTrajectory] := by
  have hu : ∀ l, upd σ.code i l j = σ.code j := fun l => upd_other _ _ hj
  unfold stepAct at h
  cases a <;> simp only at h <;> (repeat' split at h) <;> first
    | (cases h; done)
    | (rw [← Option.some.inj h]; left; exact hu _)
    | (rw [← Option.some.inj h]; left; rfl)
    | (rw [← Option.some.inj h]
       by_cases hc : j = .comp σ.launched
       · right; simp only [hc, upd_self]
       · left; simp only [upd_other _ _ hc]; exact hu _)

theorem step_code_other {σ τ : State} {i j : Tid} {ch : Choice} (hj : j ≠ i) (h : step σ i ch = some τ) :
    τ.code j = σ.code j ∨ τ.code j = [computeTrajectory] := by
  unfold step at h
  split at h
  · cases h
  split at h
  · split at h
    · rw [← Option.some.inj h]; left; exact upd_other _ _ hj
    · cases h
  · rename_i p k c _
    unfold stepProg at h
    cases p with
    | act a => exact stepAct_code_other hj h
    | skip | seq | br | loopWhile | many => rw [← Option.some.inj h]; left; exact upd_other _ _ hj
  · cases h

/-- A step that a script in which only user 1 asks may make. -/
def apartStep (σ : State) (i : Tid) (ch : Choice) : Option State :=
  match step σ i ch with
  | none => none
  | some τ =>
    if (ch = .call .getWasTrajectoryRegenerated → i = .user 1) ∧
        (ch = .call .getWasTrajectoryRegenerated ∨ τ.log = .changed :: σ.log → (σ.code (.user 1)).all (fun p => !p.reports) = true) then some τ
    else none

/-- The steps of a script. -/
def apartRun : State → List (Tid × Choice) → Option State
  | σ, [] => some σ
  | σ, (i, ch) :: l =>
    match apartStep σ i ch with
    | some τ => apartRun τ l
    | none => none

theorem computeTrajectory_clean : CleanCode [computeTrajectory] := by
  intro p hp
  rw [List.mem_singleton.mp hp]; decide +kernel

theorem step_clean_own {σ τ : State} {i : Tid} {ch : Choice} (hc : CleanCode (σ.code i)) (hne : ch ≠ .call .getWasTrajectoryRegenerated)
    (h : step σ i ch = some τ) : CleanCode (τ.code i) := by
  unfold step at h
  split at h
  · cases h
  split at h
  · rename_i a hcode
    split at h
    · rw [← Option.some.inj h]
      simp only [upd_self]
      intro q hq
      rw [List.mem_singleton.mp hq]
      exact api_clean a fun e => hne (by rw [e])
    · cases h
  · rename_i p k c hcode
    have hc' := hc
    rw [hcode] at hc'
    exact (stepProg_clean hc (hc' p (by simp)) (fun q hq => hc' q (by simp [hq])) h).code_i
  · cases h

theorem apartStep_reach {σ τ : State} {i : Tid} {ch : Choice} (h : ReachApart σ) (hc : ∀ j, j ≠ .user 1 → CleanCode (σ.code j)) (e : apartStep σ i ch = some τ) :
    ReachApart τ ∧ ∀ j, j ≠ .user 1 → CleanCode (τ.code j) := by
  unfold apartStep at e
  split at e
  · cases e
  · rename_i ρ hs
    split at e
    · rename_i hok
      obtain rfl := Option.some.inj e
      refine ⟨.step h hs fun hq j => ?_, fun j hj => ?_⟩
      · rintro ⟨p, hp, hr⟩
        by_cases hj : j = .user 1
        · subst hj
          have := List.all_eq_true.mp (hok.2 hq) p hp
          rw [hr] at this
          cases this
        · have := out_not_reporting (hc j hj) p hp
          rw [hr] at this
          cases this
      · by_cases hji : j = i
        · subst hji
          exact step_clean_own (hc j hj) (fun e => hj (hok.1 e)) hs
        · rcases step_code_other hji hs with e | e
          · rw [e]; exact hc j hj
          · rw [e]; exact computeTrajectory_clean
    · cases e

theorem apartRun_reach (l : List (Tid × Choice)) : ∀ {σ τ : State}, ReachApart σ → (∀ j, j ≠ .user 1 → CleanCode (σ.code j)) → apartRun σ l = some τ → ReachApart τ := by
  induction l with
  | nil => intro σ τ h _ e; cases e; exact h
  | cons x l ih =>
    obtain ⟨i, ch⟩ := x
    intro σ τ h hc e
    simp only [apartRun] at e
    split at e
    · rename_i ρ hs
      obtain ⟨h', hc'⟩ := apartStep_reach h hc hs
      exact ih h' hc' e
    · cases e

/-- A script shows that a state with a property is reachable. -/
theorem apart_script (l : List (Tid × Choice)) (p : State → Bool) (h : (apartRun .init l).any p = true) : ∃ σ, ReachApart σ ∧ p σ = true := by
  rw [Option.any_eq_true] at h
  obtain ⟨σ, h1, h2⟩ := h
  refine ⟨σ, apartRun_reach l .init (fun j _ => ?_) h1, h2⟩
  have := rinv_init.at_ j
  exact this

end Verif.Conc
