import Verif.Lemmas.PlannerFine

/-! # What is known inside one evaluating call -/

set_option linter.unusedSectionVars false
set_option linter.unusedSimpArgs false

namespace Verif.Lemmas
open Verif Verif.Spec

variable {K : Type*} [Field K] [LinearOrder K] [IsStrictOrderedRing K] [FloorSemiring K]

/-- The call a thread is in, as long as `checkTrajectoryGenerated` is not over. -/
def purposeOf : Consumer K → Option (Purpose K)
  | .start k | .wait k | .valid k | .busy k _ | .ready k | .get k | .target k _ | .old k _ _ _ | .fit0 k _ _ _ | .fit k _ _ _ _ _ _ _
  | .offset k _ _ _ _ | .fitted k _ _ | .params k _ | .traj k _ | .mark k | .swap k | .clearComputing k | .clearRequest k => some k
  | _ => none

/-- `v` is the reference of order `k` of the current plan at the evaluated instant, with the waypoints of one of the states `fs`. -/
def Got (env : Env K) (t : K) (fs : List (Fine K)) (p : Planner K) (k : ℕ) (v : V3 K) : Prop :=
  ∃ f' ∈ fs, ¬ TakingOver f'.c ∧ f'.p.traj = p.traj ∧ f'.p.params.gtlg = p.params.gtlg ∧ f'.p.params.tOffset = p.params.tOffset ∧
    ∃ tr, p.traj = some tr ∧ IsReference env tr f'.p.dyn (t - p.params.gtlg + p.params.tOffset) (t + p.params.tOffset) k v

theorem got_mono {env : Env K} {t : K} {fs fs' : List (Fine K)} {p p' : Planner K} {k : ℕ} {v : V3 K} (h : Got env t fs p k v)
    (hm : ∀ f ∈ fs, f ∈ fs') (h1 : p'.traj = p.traj) (h2 : p'.params.gtlg = p.params.gtlg) (h3 : p'.params.tOffset = p.params.tOffset) :
    Got env t fs' p' k v := by
  obtain ⟨f', hf, g0, g1, g2, g3, tr, g4, g5⟩ := h
  exact ⟨f', hm _ hf, g0, g1.trans h1.symm, g2.trans h2.symm, g3.trans h3.symm, tr, h1.trans g4, by rw [h2, h3]; exact g5⟩

def AllGot (env : Env K) (t : K) (fs : List (Fine K)) (p : Planner K) (done : List (V3 K)) : Prop :=
  ∀ k v, done[k]? = some v → Got env t fs p k v

/-- What is known inside `evaluateTrajectory(t, ..., o, fl)`. -/
def CallInv (env : Env K) (t : K) (o fl : Bool) (fs : List (Fine K)) (f : Fine K) : Prop :=
  match f.c with
  | .localTime t' o' fl' => t' = t ∧ o' = o ∧ fl' = fl
  | .note t' o' fl' l => t' = t ∧ o' = o ∧ fl' = fl ∧ l = t - f.p.params.gtlg
  | .shift t' o' l => t' = t ∧ o' = o ∧ l = t - f.p.params.gtlg ∧ (fl = false → f.p.params.lastGlobal = t ∧ f.p.params.lastLocal = l)
  | .plain o' g l done => o' = o ∧ g = t + f.p.params.tOffset ∧ l = t - f.p.params.gtlg + f.p.params.tOffset ∧ done.length < 3 ∧
      (o = true → done = []) ∧ (fl = false → f.p.params.lastGlobal = t ∧ f.p.params.lastLocal = t - f.p.params.gtlg) ∧
      AllGot env t fs f.p done
  | .compensate o' g l done base => o' = o ∧ g = t + f.p.params.tOffset ∧ l = t - f.p.params.gtlg + f.p.params.tOffset ∧ done.length < 3 ∧
      (o = true → done = []) ∧ (fl = false → f.p.params.lastGlobal = t ∧ f.p.params.lastLocal = t - f.p.params.gtlg) ∧
      AllGot env t fs f.p done ∧
      ∃ tr x, f.p.traj = some tr ∧ tr.evaluate (Planner.clampTime l tr.maxTime) done.length = .ok x ∧ V3.ofList x = .ok base
  | .evaluated r => (fl = false → f.p.params.lastGlobal = t ∧ f.p.params.lastLocal = t - f.p.params.gtlg) ∧
      ∃ done, r = referencesOf done ∧ AllGot env t fs f.p done ∧ done.length = (if o then 1 else 3) ∧ f.p.traj ≠ none
  | .free | .copy | .copied _ | .length _ | .globalTime _ | .time _ => False
  | c => purposeOf c = some (.evaluate t o fl)

theorem callInv_after {env : Env K} {t : K} {o fl : Bool} {fs : List (Fine K)} {p : Planner K} {k : Purpose K}
    (h : k = .evaluate t o fl) : CallInv env t o fl fs ⟨p, k.after⟩ := by
  subst h; exact ⟨rfl, rfl, rfl⟩

theorem call_own {env : Env K} (henv : Segmentwise env) {t : K} {o fl : Bool} {fs : List (Fine K)} {f f' : Fine K}
    (hs : Serialised env (settled f)) (h : f.consume env = .ok (some f')) (hi : CallInv env t o fl (fs ++ [f]) f) :
    CallInv env t o fl (fs ++ [f] ++ [f']) f' := by
  obtain ⟨p, c⟩ := f
  have hmem : ∀ x : Fine K, x ∈ fs ++ [⟨p, c⟩] → x ∈ fs ++ [⟨p, c⟩] ++ [f'] := fun x hx => List.mem_append_left _ hx
  cases c with
  | free => exact hi.elim
  | copy => exact hi.elim
  | copied ws => exact hi.elim
  | length b => exact hi.elim
  | globalTime x => exact hi.elim
  | time x => exact hi.elim
  | evaluated r => cases h
  | start k =>
    have hk : k = .evaluate t o fl := Option.some.inj hi
    subst hk
    rw [← Option.some.inj (Except.ok.inj h)]; rfl
  | wait k =>
    simp only [Fine.consume] at h
    split at h
    · rw [← Option.some.inj (Except.ok.inj h)]; exact hi
    · cases h
  | valid k => rw [← Option.some.inj (Except.ok.inj h)]; exact hi
  | busy k v =>
    have h := Option.some.inj (Except.ok.inj h)
    subst h
    have hk : k = .evaluate t o fl := Option.some.inj hi
    simp only
    split
    · exact hi
    · exact callInv_after hk
  | ready k =>
    have hk : k = .evaluate t o fl := Option.some.inj hi
    simp only [Fine.consume] at h
    split at h
    · have h := Option.some.inj (Except.ok.inj h)
      subst h
      split
      · exact hi
      · exact callInv_after hk
    · cases h
  | get k =>
    simp only [Fine.consume] at h
    cases hf : p.future with
    | ready new => rw [hf] at h; rw [← Option.some.inj (Except.ok.inj h)]; exact hi
    | failed => rw [hf] at h; cases h
    | invalid => rw [hf] at h; cases h
    | launched => rw [hf] at h; cases h
    | running sp => rw [hf] at h; cases h
  | target k new =>
    simp only [Fine.consume] at h
    split at h <;> (rw [← Option.some.inj (Except.ok.inj h)]; exact hi)
  | old k new g l =>
    simp only [Fine.consume] at h
    split at h
    · cases h
    · simp only [bind, Except.bind] at h
      split at h
      · cases h
      · rw [← Option.some.inj (Except.ok.inj h)]; exact hi
  | fit0 k new scratch target =>
    simp only [Fine.consume, bind, Except.bind] at h
    split at h
    · cases h
    · rw [← Option.some.inj (Except.ok.inj h)]; exact hi
  | fit k new scratch target n i d m =>
    cases n with
    | zero => rw [← Option.some.inj (Except.ok.inj h)]; exact hi
    | succ n =>
      simp only [Fine.consume, bind, Except.bind] at h
      split at h
      · cases h
      · split at h <;> (rw [← Option.some.inj (Except.ok.inj h)]; exact hi)
  | offset k new scratch target m => rw [← Option.some.inj (Except.ok.inj h)]; exact hi
  | fitted k new scratch => rw [← Option.some.inj (Except.ok.inj h)]; exact hi
  | params k new => rw [← Option.some.inj (Except.ok.inj h)]; exact hi
  | traj k new => rw [← Option.some.inj (Except.ok.inj h)]; exact hi
  | mark k => rw [← Option.some.inj (Except.ok.inj h)]; exact hi
  | swap k => rw [← Option.some.inj (Except.ok.inj h)]; exact hi
  | clearComputing k => rw [← Option.some.inj (Except.ok.inj h)]; exact hi
  | clearRequest k =>
    rw [← Option.some.inj (Except.ok.inj h)]
    exact callInv_after (Option.some.inj hi)
  | localTime t' o' fl' =>
    rw [← Option.some.inj (Except.ok.inj h)]
    obtain ⟨rfl, rfl, rfl⟩ := hi
    exact ⟨rfl, rfl, rfl, rfl⟩
  | note t' o' fl' l =>
    rw [← Option.some.inj (Except.ok.inj h)]
    obtain ⟨h1, h2, h3, h4⟩ := hi
    subst h1 h2 h3
    cases fl' with
    | true => exact ⟨rfl, rfl, h4, fun h => by cases h⟩
    | false => exact ⟨rfl, rfl, h4, fun _ => ⟨rfl, rfl⟩⟩
  | shift t' o' l =>
    rw [← Option.some.inj (Except.ok.inj h)]
    obtain ⟨h1, h2, h3, h4⟩ := hi
    subst h1 h2
    refine ⟨rfl, rfl, by rw [h3], by simp, fun _ => rfl, fun hf => ⟨(h4 hf).1, (h4 hf).2.trans h3⟩, ?_⟩
    intro k v hv; simp at hv
  | plain o' g l done =>
    simp only [Fine.consume] at h
    split at h
    · cases h
    · rename_i tr htr
      simp only [bind, Except.bind] at h
      split at h
      · cases h
      · rename_i x hx
        split at h
        · cases h
        · rename_i base hb
          obtain ⟨h1, h2, h3, h4, h5, h6, h7⟩ := hi
          rw [← Option.some.inj (Except.ok.inj h)]
          exact ⟨h1, h2, h3, h4, h5, h6, fun k v hv => got_mono (h7 k v hv) (fun x hx => List.mem_append_left _ hx) rfl rfl rfl,
            tr, x, htr, hx, hb⟩
  | compensate o' g l done base =>
    obtain ⟨v, hv, h⟩ := compensate_step h
    subst h
    obtain ⟨h1, h2, h3, h4, h5, h6, h7, tr, x, htr, hx, hb⟩ := hi
    have htr : p.traj = some tr := htr
    have hu := traj_usable env henv p (serialised_plan henv hs) tr htr
    have hm : p.evaluateModified env tr g l done.length = .ok v := by
      unfold Planner.evaluateModified
      simp only [bind, Except.bind, hx, hb]
      exact hv
    have href := evaluateModified_ok env p tr hu g l done.length v hm
    rw [h2, h3] at href
    have hall : AllGot env t (fs ++ [⟨p, .compensate o' g l done base⟩] ++ [⟨p, nextOrder o' g l (done ++ [v])⟩]) p (done ++ [v]) := by
      intro k u hk
      by_cases hlt : k < done.length
      · rw [List.getElem?_append_left hlt] at hk
        exact got_mono (h7 k u hk) (fun x hx => List.mem_append_left _ hx) rfl rfl rfl
      · rw [List.getElem?_append_right (by omega)] at hk
        have hk0 : k = done.length := by
          by_contra hne
          rw [List.getElem?_eq_none (by simp; omega)] at hk
          cases hk
        subst hk0
        simp only [Nat.sub_self, List.getElem?_cons_zero] at hk
        rw [← Option.some.inj hk]
        exact ⟨⟨p, .compensate o' g l done base⟩, List.mem_append_left _ (List.mem_append_right _ (List.mem_singleton.mpr rfl)), id, rfl, rfl, rfl,
          tr, htr, href⟩
    subst h1
    unfold nextOrder at hall ⊢
    cases o' with
    | true =>
      have hd := h5 rfl
      subst hd
      refine ⟨h6, _, rfl, hall, rfl, by rw [htr]; simp⟩
    | false =>
      by_cases h3' : (done ++ [v]).length = 3
      · have e : (false || (done ++ [v]).length == 3) = true := by simp only [h3', beq_self_eq_true, Bool.or_true]
        rw [if_pos e] at hall ⊢
        exact ⟨h6, _, rfl, hall, h3', by rw [htr]; simp⟩
      · have e : ¬ (false || (done ++ [v]).length == 3) = true := by
          simp only [Bool.false_or, beq_iff_eq]; exact h3'
        rw [if_neg e] at hall ⊢
        have : (done ++ [v]).length < 3 := by
          simp only [List.length_append, List.length_singleton] at h3' ⊢
          omega
        exact ⟨rfl, h2, h3, this, (fun h => by cases h), h6, hall⟩

theorem call_other {env : Env K} {t : K} {o fl : Bool} {fs : List (Fine K)} {p p' : Planner K} {c : Consumer K}
    (hs : Serialised env (settled ⟨p, c⟩)) (h : OtherStep env p p') (hi : CallInv env t o fl fs ⟨p, c⟩) :
    CallInv env t o fl (fs ++ [⟨p', c⟩]) ⟨p', c⟩ := by
  by_cases ht : TakingOver c
  · cases c <;> first | exact ht.elim | exact hi
  · rw [settled_eq (f := ⟨p, c⟩) ht] at hs
    obtain ⟨f1, f2, f3, f4, f5, _⟩ := other_frame (serialised_ctl hs) h
    have hm : ∀ (done : List (V3 K)), AllGot env t fs p done → AllGot env t (fs ++ [⟨p', c⟩]) p' done :=
      fun done hd k v hk => got_mono (hd k v hk) (fun x hx => List.mem_append_left _ hx) f1 f2 f3
    cases c with
    | note t' o' fl' l => exact ⟨hi.1, hi.2.1, hi.2.2.1, by rw [f2]; exact hi.2.2.2⟩
    | shift t' o' l => exact ⟨hi.1, hi.2.1, by rw [f2]; exact hi.2.2.1, by rw [f4, f5]; exact hi.2.2.2⟩
    | plain o' g l done =>
      obtain ⟨h1, h2, h3, h4, h5, h6, h7⟩ := hi
      exact ⟨h1, by rw [f3]; exact h2, by rw [f2, f3]; exact h3, h4, h5, by rw [f4, f5, f2]; exact h6, hm _ h7⟩
    | compensate o' g l done base =>
      obtain ⟨h1, h2, h3, h4, h5, h6, h7, tr, x, h8⟩ := hi
      exact ⟨h1, by rw [f3]; exact h2, by rw [f2, f3]; exact h3, h4, h5, by rw [f4, f5, f2]; exact h6, hm _ h7, tr, x, f1.trans h8.1, h8.2⟩
    | evaluated r =>
      obtain ⟨h1, done, h2, h3, h4, h5⟩ := hi
      exact ⟨by rw [f4, f5, f2]; exact h1, done, h2, hm _ h3, h4, by rw [f1]; exact h5⟩
    | _ => exact hi

theorem during_last {env : Env K} {k : Purpose K} {fs : List (Fine K)} {f : Fine K} (h : During env k fs f) : ∃ gs, fs = gs ++ [f] := by
  cases h with
  | start _ _ => exact ⟨[], rfl⟩
  | inside _ _ => exact ⟨_, rfl⟩

theorem during_call {env : Env K} (henv : Segmentwise env) {t : K} {o fl : Bool} {fs : List (Fine K)} {f : Fine K}
    (h : During env (.evaluate t o fl) fs f) : CallInv env t o fl fs f := by
  induction h with
  | start _ _ => rfl
  | inside hd hs ih =>
    have hi := interleaved_inv (during_interleaved hd)
    cases hs with
    | own h =>
      obtain ⟨gs, rfl⟩ := during_last hd
      exact call_own henv hi.1 h ih
    | other c h => exact call_other hi.1 h ih

/-! ## A waiting plan is taken over -/

/-- Where the plan `new` is while an evaluating call that found it waiting is in progress. -/
def PlanAt (new : Trajectory K) (f : Fine K) : Prop :=
  match f.c with
  | .start _ | .wait _ | .valid _ | .ready _ | .get _ => f.p.future = .ready new ∧ f.p.computing = true
  | .busy _ v => f.p.future = .ready new ∧ f.p.computing = true ∧ v = true
  | .target _ n | .old _ n _ _ | .fit0 _ n _ _ | .fit _ n _ _ _ _ _ _ | .offset _ n _ _ _ | .fitted _ n _ | .params _ n | .traj _ n => n = new
  | .free => True
  | _ => f.p.traj = some new

theorem planAt_after {new : Trajectory K} {p : Planner K} (k : Purpose K) (h : p.traj = some new) : PlanAt new ⟨p, k.after⟩ := by
  cases k <;> exact h

theorem planAt_other {env : Env K} {new : Trajectory K} {p p' : Planner K} {c : Consumer K}
    (hs : Serialised env (settled ⟨p, c⟩)) (hp : PhaseInv env ⟨p, c⟩) (h : OtherStep env p p') (hi : PlanAt new ⟨p, c⟩) : PlanAt new ⟨p', c⟩ := by
  have hframe : p'.traj = p.traj := by
    by_cases ht : TakingOver c
    · have hh : Held p := by cases c <;> first | exact ht.elim | exact hp.1 | exact hp
      exact (aside_unchanged (other_aside hh h)).traj
    · rw [settled_eq (f := ⟨p, c⟩) ht] at hs
      exact (other_frame (serialised_ctl hs) h).1
  have hfut : ¬ TakingOver c → p.future = .ready new → p.computing = true → p'.future = .ready new ∧ p'.computing = true := by
    intro ht h1 h2
    rw [settled_eq (f := ⟨p, c⟩) ht] at hs
    obtain ⟨_, _, _, _, _, f6, _, f8⟩ := other_frame (serialised_ctl hs) h
    exact ⟨(f8 (by rw [h1]; rfl)).trans h1, f6 h2⟩
  cases c with
  | start k => exact hfut id hi.1 hi.2
  | wait k => exact hfut id hi.1 hi.2
  | valid k => exact hfut id hi.1 hi.2
  | ready k => exact hfut id hi.1 hi.2
  | get k => exact hfut id hi.1 hi.2
  | busy k v =>
    obtain ⟨h1, h2⟩ := hfut id hi.1 hi.2.1
    exact ⟨h1, h2, hi.2.2⟩
  | free => trivial
  | target k n => exact hi
  | old k n g l => exact hi
  | fit0 k n s x => exact hi
  | fit k n s x a b d m => exact hi
  | offset k n s x m => exact hi
  | fitted k n s => exact hi
  | params k n => exact hi
  | traj k n => exact hi
  | _ => exact hframe.trans hi

theorem planAt_own {env : Env K} {new : Trajectory K} {f f' : Fine K} (h : f.consume env = .ok (some f'))
    (hn : ∀ k, f.c = .start k → k ≠ .maxTime ∧ k ≠ .minTime) (hi : PlanAt new f) : PlanAt new f' := by
  obtain ⟨p, c⟩ := f
  cases c with
  | free => cases h
  | copied ws => cases h
  | time x => cases h
  | evaluated r => cases h
  | start k =>
    obtain ⟨n1, n2⟩ := hn k rfl
    cases k with
    | maxTime => exact absurd rfl n1
    | minTime => exact absurd rfl n2
    | evaluate t o fl => rw [← Option.some.inj (Except.ok.inj h)]; exact hi
    | waypoints => rw [← Option.some.inj (Except.ok.inj h)]; exact hi
  | wait k =>
    simp only [Fine.consume] at h
    split at h
    · rw [← Option.some.inj (Except.ok.inj h)]; exact hi
    · cases h
  | valid k =>
    rw [← Option.some.inj (Except.ok.inj h)]
    exact ⟨hi.1, hi.2, by rw [show p.future = .ready new from hi.1]; rfl⟩
  | busy k v =>
    obtain ⟨h1, h2, h3⟩ := hi
    have h2 : p.computing = true := h2
    subst h3
    have h := Option.some.inj (Except.ok.inj h)
    subst h
    show PlanAt new ⟨p, if (p.computing && true) = true then .ready k else k.after⟩
    rw [if_pos (by rw [h2]; rfl)]
    exact ⟨h1, h2⟩
  | ready k =>
    have h1 : p.future = .ready new := hi.1
    simp only [Fine.consume, h1, Future.valid, Future.isReady, if_true] at h
    rw [← Option.some.inj (Except.ok.inj h)]
    exact hi
  | get k =>
    have h1 : p.future = .ready new := hi.1
    simp only [Fine.consume, h1] at h
    rw [← Option.some.inj (Except.ok.inj h)]
    rfl
  | target k n =>
    simp only [Fine.consume] at h
    split at h <;> (rw [← Option.some.inj (Except.ok.inj h)]; exact hi)
  | old k n g l =>
    simp only [Fine.consume] at h
    split at h
    · cases h
    · simp only [bind, Except.bind] at h
      split at h
      · cases h
      · rw [← Option.some.inj (Except.ok.inj h)]; exact hi
  | fit0 k n scratch target =>
    simp only [Fine.consume, bind, Except.bind] at h
    split at h
    · cases h
    · rw [← Option.some.inj (Except.ok.inj h)]; exact hi
  | fit k n scratch target a i d m =>
    cases a with
    | zero => rw [← Option.some.inj (Except.ok.inj h)]; exact hi
    | succ a =>
      simp only [Fine.consume, bind, Except.bind] at h
      split at h
      · cases h
      · split at h <;> (rw [← Option.some.inj (Except.ok.inj h)]; exact hi)
  | offset k n scratch target m => rw [← Option.some.inj (Except.ok.inj h)]; exact hi
  | fitted k n scratch => rw [← Option.some.inj (Except.ok.inj h)]; exact hi
  | params k n => rw [← Option.some.inj (Except.ok.inj h)]; exact hi
  | traj k n =>
    have hi : n = new := hi
    rw [← Option.some.inj (Except.ok.inj h), hi]; rfl
  | mark k => rw [← Option.some.inj (Except.ok.inj h)]; exact hi
  | swap k => rw [← Option.some.inj (Except.ok.inj h)]; exact hi
  | clearComputing k => rw [← Option.some.inj (Except.ok.inj h)]; exact hi
  | clearRequest k => rw [← Option.some.inj (Except.ok.inj h)]; exact planAt_after k hi
  | localTime t o fl => rw [← Option.some.inj (Except.ok.inj h)]; exact hi
  | note t o fl l =>
    rw [← Option.some.inj (Except.ok.inj h)]
    cases fl <;> exact hi
  | shift t o l => rw [← Option.some.inj (Except.ok.inj h)]; exact hi
  | plain o g l done =>
    simp only [Fine.consume] at h
    split at h
    · cases h
    · simp only [bind, Except.bind] at h
      split at h
      · cases h
      · split at h
        · cases h
        · rw [← Option.some.inj (Except.ok.inj h)]; exact hi
  | compensate o g l done base =>
    obtain ⟨v, _, h⟩ := compensate_step h
    subst h
    unfold nextOrder
    split <;> exact hi
  | copy => rw [← Option.some.inj (Except.ok.inj h)]; exact hi
  | length b =>
    simp only [Fine.consume] at h
    split at h
    · cases h
    · rw [← Option.some.inj (Except.ok.inj h)]; exact hi
  | globalTime x => rw [← Option.some.inj (Except.ok.inj h)]; exact hi

theorem own_not_start {env : Env K} {f f' : Fine K} (h : f.consume env = .ok (some f')) (k : Purpose K) : f'.c ≠ .start k := by
  obtain ⟨p, c⟩ := f
  intro hk
  cases c with
  | start k' =>
    cases k' <;> simp only [Fine.consume] at h <;> rw [← Option.some.inj (Except.ok.inj h)] at hk <;> simp only at hk <;>
      first | cases hk | (split at hk <;> cases hk)
  | get k' =>
    simp only [Fine.consume] at h
    cases hf : p.future <;> rw [hf] at h <;> cases h <;> cases hk
  | compensate o g l done base =>
    obtain ⟨v, _, h⟩ := compensate_step h
    subst h
    unfold nextOrder at hk
    simp only at hk
    split at hk <;> cases hk
  | busy k' v =>
    rw [← Option.some.inj (Except.ok.inj h)] at hk
    simp only at hk
    split at hk
    · cases hk
    · cases k' <;> cases hk
  | ready k' =>
    simp only [Fine.consume] at h
    split at h
    · rw [← Option.some.inj (Except.ok.inj h)] at hk
      simp only at hk
      split at hk
      · cases hk
      · cases k' <;> cases hk
    · cases h
  | clearRequest k' =>
    rw [← Option.some.inj (Except.ok.inj h)] at hk
    cases k' <;> cases hk
  | fit k' n scratch target a i d m =>
    cases a with
    | zero => rw [← Option.some.inj (Except.ok.inj h)] at hk; cases hk
    | succ a =>
      simp only [Fine.consume, bind, Except.bind] at h
      split at h
      · cases h
      · split at h <;> (rw [← Option.some.inj (Except.ok.inj h)] at hk; cases hk)
  | fit0 k' n scratch target =>
    simp only [Fine.consume, bind, Except.bind] at h
    split at h
    · cases h
    · rw [← Option.some.inj (Except.ok.inj h)] at hk; cases hk
  | old k' n g l =>
    simp only [Fine.consume] at h
    split at h
    · cases h
    · simp only [bind, Except.bind] at h
      split at h
      · cases h
      · rw [← Option.some.inj (Except.ok.inj h)] at hk; cases hk
  | plain o g l done =>
    simp only [Fine.consume] at h
    split at h
    · cases h
    · simp only [bind, Except.bind] at h
      split at h
      · cases h
      · split at h
        · cases h
        · rw [← Option.some.inj (Except.ok.inj h)] at hk; cases hk
  | _ =>
    simp only [Fine.consume] at h
    first
      | (rw [← Option.some.inj (Except.ok.inj h)] at hk; cases hk)
      | (split at h <;> first | (rw [← Option.some.inj (Except.ok.inj h)] at hk; cases hk) | cases h)
      | cases h

theorem during_start {env : Env K} {k : Purpose K} {fs : List (Fine K)} {f : Fine K} (h : During env k fs f) (k' : Purpose K)
    (hc : f.c = .start k') : k' = k := by
  induction h with
  | start _ _ => cases hc; rfl
  | inside hd hs ih =>
    cases hs with
    | own h => exact absurd hc (own_not_start h k')
    | other c h => exact ih hc

end Verif.Lemmas
