import Verif.Properties.PlannerStitch

/-!
# Properties C46, C61: what becomes of a request made while the planner is idle, and calls before the first plan

The refutations of C46 are in `Properties/PlannerRequests`.
-/

namespace Verif.Properties

open Verif Verif.Spec Verif.Lemmas

section
variable {K : Type*} [Field K] [LinearOrder K] [IsStrictOrderedRing K] [FloorSemiring K]

/-- Pending. -/
def Pending (g : Requests K) (w : Waypoint K) : Prop := w ∈ g.route ∨ w ∈ g.appended

theorem handsOver_pending (g : Requests K) (pc : WorkerPc) (r : Event K) (w : Waypoint K) (h : HandsOver r w) : Pending (g.after pc r) w := by
  rcases h with rfl | ⟨ws, rfl, hw⟩
  · exact Or.inr (by simp [Requests.after])
  · exact Or.inl hw

theorem pending_after (g : Requests K) (s : Planner K) (e : Event K) (w : Waypoint K) (h : Pending g w) (hc : ¬ Collects s e)
    (hset : ∀ ws, e ≠ .setWaypoints ws) : Pending (g.after s.pc e) w := by
  cases e with
  | setWaypoints ws => exact absurd rfl (hset ws)
  | appendWaypoint u => rcases h with h | h
                        · exact Or.inl h
                        · exact Or.inr (by simp [Requests.after, h])
  | worker =>
    simp only [Requests.after]
    rw [if_neg (fun hh => hc ⟨rfl, hh⟩)]
    split
    · exact h
    · exact h
  | _ => exact h

/-- Nothing is being planned. -/
def Resting (s : Planner K) : Prop := (s.pc = .top ∨ s.pc = .apply ∨ s.pc = .collect) ∧ s.computing = false

theorem resting_micro (env : Env K) (e : Event K) (s s' : Planner K) (hcol : ¬ Collects s e)
    (hi : Resting s) (h : Micro env e s s') : Resting s' := by
  obtain ⟨hp, hcomp⟩ := hi
  cases h with
  | takeOver _ _ new off hcomp' hr he hfit => rw [hcomp] at hcomp'; cases hcomp'
  | goCollect _ _ hg' _ _ => exact ⟨Or.inr (Or.inr rfl), hcomp⟩
  | goApply _ _ _ _ _ => exact ⟨Or.inr (Or.inl rfl), hcomp⟩
  | collect _ ws hp' _ => exact absurd ⟨rfl, hp'⟩ hcol
  | nothingToPlan _ hp' _ => rcases hp with hp | hp | hp <;> rw [hp] at hp' <;> cases hp'
  | snapshot _ hp' _ => rcases hp with hp | hp | hp <;> rw [hp] at hp' <;> cases hp'
  | stitch _ ws hp' _ _ => rcases hp with hp | hp | hp <;> rw [hp] at hp' <;> cases hp'
  | scratch _ ws hp' _ _ => rcases hp with hp | hp | hp <;> rw [hp] at hp' <;> cases hp'
  | planned _ hp' => rcases hp with hp | hp | hp <;> rw [hp] at hp' <;> cases hp'
  | launch _ hp' => rcases hp with hp | hp | hp <;> rw [hp] at hp' <;> cases hp'
  | launched _ hp' => rcases hp with hp | hp | hp <;> rw [hp] at hp' <;> cases hp'
  | apply _ s2 hp' ha =>
    obtain ⟨_, d, r, rfl, _⟩ := applyAll_rel (fun _ _ => True) (fun _ => trivial) (fun _ _ _ _ _ => trivial)
      (fun _ _ _ _ _ => trivial) _ s s2 ha
    exact ⟨Or.inl rfl, hcomp⟩
  | _ => exact ⟨hp, hcomp⟩

theorem resting_step (env : Env K) (e : Event K) (s s' : Planner K) (hcol : ¬ Collects s e)
    (hi : Resting s) (h : s.step env e = .ok (some s')) : Resting s' := by
  rcases step_micro' env e s s' h with ⟨rfl, _⟩ | h | ⟨m, ⟨t, o, rfl⟩, h1, h2⟩
  · exact hi
  · exact resting_micro env e s s' hcol hi h
  · exact resting_micro env _ m s' (fun h => by cases h.1) (resting_micro env _ s m hcol hi h1) h2

theorem updates_after (g : Requests K) (pc : WorkerPc) (e : Event K) : ∀ u ∈ (g.after pc e).updates, u ∈ g.updates ++ updatesIn [e] := by
  intro u hu
  cases e with
  | worker =>
    simp only [Requests.after] at hu
    split at hu
    · cases hu
    · split at hu
      · cases hu
      · simp [hu]
  | setWaypoints ws => cases hu
  | _ => simpa [Requests.after, updatesIn] using hu

theorem becomes_none (us : List (String × V3 K)) (w : Waypoint K) (h : ∀ u ∈ us, u.1 ≠ w.name) : updateFor us w = none := by
  unfold updateFor lastUpdate
  split
  · rfl
  · rw [List.filter_eq_nil_iff.mpr (by intro u hu; simpa using h u hu)]; rfl

/-- C46 for requests made while nothing is being planned: whatever is called afterwards (short of another `setWaypoints`) and however the
worker and the computation proceed, the next plan that is taken over contains the waypoint, with its name; at its position and with its
other constraints, unless an update for that name was asked for (then C50 applies). The waypoint is new: its time is not set, otherwise
C52 applies. -/
theorem C46_next_plan_partial (env : Env K) (v : V3 K) (es1 es2 : List (Event K)) (hv1 : ∀ e ∈ es1, ValidEvent e) (hv2 : ∀ e ∈ es2, ValidEvent e)
    (s0 s1 s2 s3 : Planner K) (g0 : Requests K) (h0 : RunR env (Planner.init v) es1 g0 s0) (hidle : s0.pc = .top ∧ s0.computing = false)
    (r : Event K) (hr : ValidEvent r) (w : Waypoint K) (hw : HandsOver r w) (hnew : w.time = 0) (h1 : s0.step env r = .ok (some s1))
    (h2 : RunWhile (fun s e s' => ¬ TakesOver s s' ∧ ∀ ws, e ≠ .setWaypoints ws) env s1 es2 s2) (e : Event K)
    (h3 : s2.step env e = .ok (some s3)) (ht : TakesOver s2 s3) :
    ∃ w' ∈ s3.dyn, w'.name = w.name ∧ ((∀ u ∈ g0.updates ++ updatesIn es2, u.1 ≠ w.name) →
      w'.current = w.current ∧ w'.vertex.getConstraint 0 = some [w.current.x, w.current.y, w.current.z] ∧
      ∀ k : Int, k ≠ 0 → w'.vertex.getConstraint k = w.vertex.getConstraint k) := by
  have hrest : Resting s1 := by
    rcases hw with rfl | ⟨ws, rfl, _⟩ <;> rw [← Option.some.inj (Except.ok.inj h1)] <;> exact ⟨Or.inl hidle.1, hidle.2⟩
  have hupd0 : ∀ u ∈ (g0.after s0.pc r).updates, u ∈ g0.updates := by
    intro u hu
    rcases hw with rfl | ⟨ws, rfl, _⟩
    · exact hu
    · cases hu
  -- before the requests are collected, or after it
  have key : (∃ g, RunR env (Planner.init v) (es1 ++ [r] ++ es2) g s2 ∧ Resting s2 ∧ Pending g w ∧
        ∀ u ∈ g.updates, u ∈ g0.updates ++ updatesIn es2) ∨
      (∃ sc w0 a b, es2 = a ++ b ∧ Reachable env sc ∧ sc.pc = .collected ∧ RunBefore env sc b s2 ∧ w0 ∈ sc.next ∧ w0.time = 0 ∧
        w0.name = w.name ∧ ((∀ u ∈ g0.updates ++ updatesIn es2, u.1 ≠ w.name) → Becomes none w w0)) := by
    clear h3 ht
    induction h2 with
    | nil => exact Or.inl ⟨_, by simpa using RunR.snoc r h0 h1, hrest, handsOver_pending _ _ _ _ hw, fun u hu => by simp [hupd0 u hu]⟩
    | snoc x _ hs hok ih =>
      rename_i es' s' s'' _
      have hupd : updatesIn (es' ++ [x]) = updatesIn es' ++ updatesIn [x] := by simp [updatesIn]
      have hv' : ∀ e ∈ es1 ++ [r] ++ es', ValidEvent e := by
        intro y hy
        rcases List.mem_append.mp hy with hy | hy
        · rcases List.mem_append.mp hy with hy | hy
          · exact hv1 y hy
          · rw [List.mem_singleton.mp hy]; exact hr
        · exact hv2 y (by simp [hy])
      rcases ih (fun y hy => hv2 y (by simp [hy])) with ⟨g, hg, hre, hpe, hus⟩ | ⟨sc, w0, a, b, rfl, hrc, hpc, hrun, hm, htm, hn, hb⟩
      · by_cases hcol : Collects s' x
        · right
          obtain ⟨rfl, hcol⟩ := hcol
          obtain ⟨s1', k1, hpc1, hf, _⟩ := C47_contents env v _ hv' g s' hg hcol
          rw [k1] at hs
          have : s1' = s'' := Option.some.inj (Except.ok.inj hs)
          subst this
          have hin : w ∈ (if g.route.isEmpty then s'.dyn.filter (fun w => s'.params.lastGlobal ≤ w.time) else g.route) ++ g.appended := by
            rcases hpe with hpe | hpe
            · rw [if_neg (by intro h; rw [List.isEmpty_iff] at h; rw [h] at hpe; cases hpe)]
              simp [hpe]
            · simp [hpe]
          obtain ⟨w0, hw0, hbec⟩ := forall2_mem_left hf hin
          refine ⟨s1', w0, es' ++ [.worker], [], by simp, ?_, hpc1, .nil, hw0, hbec.2.1.trans hnew, hbec.1, ?_⟩
          · exact ⟨v, _, by
              intro y hy
              rcases List.mem_append.mp hy with hy | hy
              · exact hv' y hy
              · rw [List.mem_singleton.mp hy]; trivial, .snoc _ (runR_run _ _ _ _ _ hg) k1⟩
          · intro hno
            rw [becomes_none g.updates w] at hbec
            · exact hbec
            · intro u hu
              refine hno u ?_
              rw [hupd, ← List.append_assoc]
              exact List.mem_append_left _ (hus u hu)
        · left
          refine ⟨_, by rw [← List.append_assoc]; exact .snoc x hg hs, resting_step env x s' s'' hcol hre hs,
            pending_after g s' x w hpe hcol hok.2, ?_⟩
          intro u hu
          rw [hupd, ← List.append_assoc]
          rcases List.mem_append.mp (updates_after g s'.pc x u hu) with hu | hu
          · exact List.mem_append_left _ (hus u hu)
          · exact List.mem_append_right _ hu
      · right
        refine ⟨sc, w0, a, b ++ [x], by simp, hrc, hpc, .snoc x hrun hs hok.1, hm, htm, hn, ?_⟩
        intro hno
        refine hb fun u hu => hno u ?_
        rw [hupd, ← List.append_assoc]
        exact List.mem_append_left _ hu
  rcases key with ⟨g, _, hre, _⟩ | ⟨sc, w0, a, b, _, hrc, hpc, hrun, hm, htm, hn, hb⟩
  · have := ht.1; rw [hre.2] at this; cases this
  · obtain ⟨pre, kept, hdyn, hp⟩ := C47_taken_over env sc hrc hpc (List.ne_nil_of_mem hm) b s2 hrun e s3 h3 ht
    have hk : ∃ w' ∈ kept, SameWaypoint w0 w' := by
      rcases hp with ⟨_, hf⟩ | ⟨_, t, hf⟩
      · exact forall2_mem_left hf hm
      · exact forall2_mem_left hf (List.mem_filter.mpr ⟨hm, by simp [htm]⟩)
    obtain ⟨w', hw', hsame⟩ := hk
    refine ⟨w', by rw [hdyn]; exact List.mem_append_right _ hw', hsame.1.trans hn, fun hno => ?_⟩
    obtain ⟨_, _, b3, b4, b5⟩ := hb hno
    have hcur : w0.current = w.current := b3
    refine ⟨hsame.2.1.trans hcur, ?_, fun k hk => (hsame.2.2 k).trans (b5 k hk)⟩
    rw [hsame.2.2 0, b4, hcur]

/-- C46, the plan is made: as long as nobody calls `modifyWaypoint(..., false)` or `setWaypoints` and the worker has not collected it, the
request stays pending, and whenever the worker then looks and the vehicle is outside the security zone, its next six phases launch a
computation. -/
theorem C46_launched_partial (env : Env K) (henv : Segmentwise env) (v : V3 K) (es1 es2 : List (Event K)) (hv1 : ∀ e ∈ es1, ValidEvent e)
    (hv2 : ∀ e ∈ es2, ValidEvent e) (s0 s1 s2 : Planner K) (g0 : Requests K) (h0 : RunR env (Planner.init v) es1 g0 s0)
    (hidle : s0.pc = .top ∧ s0.computing = false) (r : Event K) (hr : ValidEvent r) (w : Waypoint K) (hw : HandsOver r w)
    (h1 : s0.step env r = .ok (some s1))
    (h2 : RunWhile (fun s e _ => ¬ Collects s e ∧ (∀ ws, e ≠ .setWaypoints ws) ∧ ∀ n p, e ≠ .modifyWaypoint n p false) env s1 es2 s2) :
    (s2.pc = .top ∨ s2.pc = .apply ∨ s2.pc = .collect) ∧ s2.computing = false ∧
    (∃ g, RunR env (Planner.init v) (es1 ++ [r] ++ es2) g s2 ∧ (w ∈ g.route ∨ w ∈ g.appended)) ∧
    (s2.pc = .top → ¬ InZone s2 → NoZeroWidth s2.dyn →
      ∃ s3, Run env s2 (List.replicate 6 .worker) s3 ∧ s3.computing = true ∧ s3.future = .launched) := by
  have hfl : Flagged s1 := by
    rcases hw with rfl | ⟨ws, rfl, _⟩ <;> rw [← Option.some.inj (Except.ok.inj h1)] <;> exact ⟨Or.inl hidle.1, hidle.2, rfl⟩
  have key : Flagged s2 ∧ ∃ g, RunR env (Planner.init v) (es1 ++ [r] ++ es2) g s2 ∧ Pending g w := by
    induction h2 with
    | nil => exact ⟨hfl, _, by simpa using RunR.snoc r h0 h1, handsOver_pending _ _ _ _ hw⟩
    | snoc x _ hs hok ih =>
      obtain ⟨i1, g, i2, i3⟩ := ih (fun y hy => hv2 y (by simp [hy]))
      exact ⟨flagged_step env x _ _ hok.2.2 hok.1 i1 hs, _, by rw [← List.append_assoc]; exact .snoc x i2 hs,
        pending_after g _ x w i3 hok.1 hok.2.1⟩
  obtain ⟨⟨k1, k2, k3⟩, g, k4, k5⟩ := key
  refine ⟨k1, k2, ⟨g, k4, k5⟩, fun hp hz hnz => ?_⟩
  refine C58_launches env henv v _ ?_ g s2 k4 hp k3 k2 hz hnz ?_
  · intro y hy
    rcases List.mem_append.mp hy with hy | hy
    · rcases List.mem_append.mp hy with hy | hy
      · exact hv1 y hy
      · rw [List.mem_singleton.mp hy]; exact hr
    · exact hv2 y hy
  · rcases k5 with k5 | k5
    · exact Or.inl (List.ne_nil_of_mem k5)
    · exact Or.inr (Or.inl (List.ne_nil_of_mem k5))

/-! ## C61 -/

/-- No result of a computation has ever been available. -/
def NothingYet (s : Planner K) : Prop := s.traj = none ∧ ¬ PlanWaiting s

theorem nothingYet_micro (env : Env K) (e : Event K) (s s' : Planner K) (he : ∀ dt, e ≠ .asyncFinish dt) (hi : NothingYet s) (h : Micro env e s s') :
    NothingYet s' := by
  obtain ⟨h1, h2⟩ := hi
  cases h with
  | takeOver _ _ new off hc hr he hfit => exact absurd (Or.inr ⟨_, hr⟩) h2
  | apply _ s2 hp' ha =>
    obtain ⟨_, d, r, rfl, _⟩ := applyAll_rel (fun _ _ => True) (fun _ => trivial) (fun _ _ _ _ _ => trivial)
      (fun _ _ _ _ _ => trivial) _ s s2 ha
    exact ⟨h1, h2⟩
  | launch _ hp => exact ⟨h1, by rintro (h | ⟨tr, h⟩) <;> cases h⟩
  | asyncStart _ hf => exact ⟨h1, by rintro (h | ⟨tr, h⟩) <;> cases h⟩
  | asyncFinish _ dt sp tr ws hf hco => exact absurd rfl (he dt)
  | asyncFail _ dt sp hf hco => exact absurd rfl (he dt)
  | _ => exact ⟨h1, h2⟩

/-- C61: in every history in which no computation has come to its end, whatever was called and however far worker and computation have got,
none of the four calls returns. -/
theorem C61_until_first (env : Env K) (v : V3 K) (es : List (Event K)) (s : Planner K) (h : Run env (Planner.init v) es s)
    (hno : ∀ dt, .asyncFinish dt ∉ es) (t : K) (o f : Bool) :
    s.evaluateTrajectory env t o f = .ok none ∧ s.getMaxTime env = .ok none ∧ s.getMinTime env = .ok none ∧
    s.getDynamicWaypoints env = .ok none := by
  have key : NothingYet s := by
    induction h with
    | nil => exact ⟨rfl, by rintro (h | ⟨tr, h⟩) <;> cases h⟩
    | snoc e _ hs ih =>
      have hi := ih (fun dt hm => hno dt (by simp [hm]))
      have he : ∀ dt, e ≠ .asyncFinish dt := fun dt hd => hno dt (by simp [hd])
      rcases step_micro env e _ _ hs with rfl | h | ⟨m, h1, h2⟩
      · exact hi
      · exact nothingYet_micro env e _ _ he hi h
      · exact nothingYet_micro env e _ _ he (nothingYet_micro env e _ _ he hi h1) h2
  exact C61_blocks env s key.1 key.2 t o f

end

/-! ## Concrete cases -/

def quiet (s : Planner ℚ) (e : Event ℚ) (s' : Planner ℚ) : Bool :=
  notTaken s e s' && (match e with | .setWaypoints _ => false | _ => true)

theorem quiet_ok (s : Planner ℚ) (e : Event ℚ) (s' : Planner ℚ) (h : quiet s e s' = true) : ¬ TakesOver s s' ∧ ∀ ws, e ≠ .setWaypoints ws := by
  unfold quiet at h
  rw [Bool.and_eq_true] at h
  refine ⟨notTaken_ok s e s' h.1, ?_⟩
  rintro ws rfl
  cases h.2

-- A waypoint appended during the flight: the planner rests, plans, and the call that takes the plan over succeeds.
example : ∃ s0 s1 s2 s3, Run hermiteEnv (Planner.init ⟨0, 0, 0⟩) (history1 ++ [.evaluate (1 / 2) true false]) s0 ∧
    s0.pc = .top ∧ s0.computing = false ∧ s0.step hermiteEnv (.appendWaypoint (wp "c" 3 3 3)) = .ok (some s1) ∧
    RunWhile (fun s e s' => ¬ TakesOver s s' ∧ ∀ ws, e ≠ .setWaypoints ws) hermiteEnv s1 (planEvents (1 / 100)) s2 ∧
    s2.step hermiteEnv .getDynamicWaypoints = .ok (some s3) ∧ TakesOver s2 s3 := by
  obtain ⟨s0, s2, s3, h1, h2, h3, hf⟩ := run3w?_map (fun _ _ _ => true) quiet (fun _ _ _ => True) _ (fun _ _ _ _ => trivial) quiet_ok
    (history1 ++ [.evaluate (1 / 2) true false]) (.appendWaypoint (wp "c" 3 3 3) :: planEvents (1 / 100)) .getDynamicWaypoints
    (fun a b c => decide (a.pc = .top ∧ a.computing = false ∧ b.computing = true ∧ c.computing = false)) true (by decide +kernel)
  obtain ⟨k1, k2, k3, k4⟩ := of_decide_eq_true hf
  obtain ⟨s1, h4, h5, h6⟩ := runWhile_cons _ _ _ _ _ _ h2
  exact ⟨s0, s1, s2, s3, runWhile_run _ _ _ _ _ h1, k1, k2, h4, h6, h3, k3, k4⟩

-- A history with a computation under way.
example : ∃ s, Run hermiteEnv (Planner.init ⟨0, 0, 0⟩) [.setWaypoints [wp "a" 1 1 1, wp "b" 2 2 2], .worker, .worker, .worker, .worker, .worker,
    .worker, .asyncStart] s ∧ s.computing = true := by
  obtain ⟨s, h1, h2⟩ := run?_map [.setWaypoints [wp "a" 1 1 1, wp "b" 2 2 2], .worker, .worker, .worker, .worker, .worker,
    .worker, .asyncStart] (·.computing) true (by decide +kernel)
  exact ⟨s, h1, h2⟩

end Verif.Properties
