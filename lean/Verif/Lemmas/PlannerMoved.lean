import Verif.Spec.PlannerMoved
import Verif.Lemmas.Hermite

/-!
# Lemmas: every operation of the planner commutes with the change of the frame
-/

set_option linter.unusedSectionVars false

namespace Verif.Lemmas

open Verif Verif.Spec

variable {K : Type*} [Field K] [LinearOrder K] [IsStrictOrderedRing K] [FloorSemiring K]

universe u

theorem res_bind_ok {α β : Type u} {x : Res α} {f : α → Res β} {b : β} (h : (x >>= f) = .ok b) : ∃ a, x = .ok a ∧ f a = .ok b := by
  cases x with
  | error e => cases h
  | ok a => exact ⟨a, rfl, h⟩

theorem res_ok_bind {α β : Type u} {x : Res α} {f : α → Res β} {a : α} (h : x = .ok a) : (x >>= f) = f a := by rw [h]; rfl

theorem mapM_moved {α β γ δ : Type u} {f : α → Res β} {g : γ → Res δ} (u : α → γ) (v : β → δ) (h : ∀ a b, f a = .ok b → g (u a) = .ok (v b)) (l : List α) (r : List β)
    (hr : l.mapM f = .ok r) : (l.map u).mapM g = .ok (r.map v) := by
  induction l generalizing r with
  | nil => rw [List.mapM_nil] at hr; obtain rfl := Except.ok.inj hr; rfl
  | cons a l ih =>
    rw [List.mapM_cons] at hr
    obtain ⟨b, h1, hr⟩ := res_bind_ok hr
    obtain ⟨bs, h2, hr⟩ := res_bind_ok hr
    obtain rfl := Except.ok.inj hr
    rw [List.map_cons, List.mapM_cons, res_ok_bind (h a b h1), res_ok_bind (ih bs h2)]
    rfl

namespace Moved

/-- A vector of order `k` in the new frame. -/
def act (F : Frame K) (k : ℕ) (p : V3 K) : V3 K := if k = 0 then F.pos p else F.dir p

theorem value_length (F : Frame K) (k : Int) (c : List K) : (F.value k c).length = c.length := by
  unfold Frame.value
  split <;> simp [V3.toList]

theorem value_toList (F : Frame K) (k : ℕ) (p : V3 K) : F.value k p.toList = (act F k p).toList := by
  unfold Frame.value V3.toList act
  simp only [Nat.cast_eq_zero, List.append_nil]

theorem dir_zero (F : Frame K) : F.dir V3.zero = (V3.zero : V3 K) := by
  unfold Frame.dir
  cases F.axes <;> simp [Axes.pick, V3.zero]

theorem value_zero (F : Frame K) (k : ℕ) (hk : k ≠ 0) : F.value k (V3.zero : V3 K).toList = (V3.zero : V3 K).toList := by
  rw [value_toList]
  unfold act
  rw [if_neg hk]
  rw [dir_zero]

theorem ofList_moved (F : Frame K) (k : ℕ) {c : List K} {p : V3 K} (h : V3.ofList c = .ok p) : V3.ofList (F.value k c) = .ok (act F k p) := by
  match c, h with
  | [x, y, z], h =>
    obtain rfl := Except.ok.inj h
    rw [show [x, y, z] = (⟨x, y, z⟩ : V3 K).toList from rfl, value_toList]
    rfl

theorem insert_moved {α : Type*} (f : Int → α → α) (k : Int) (v : α) (l : List (Int × α)) :
    IntMap.insert k (f k v) (l.map fun x => (x.1, f x.1 x.2)) = (IntMap.insert k v l).map fun x => (x.1, f x.1 x.2) := by
  induction l with
  | nil => rfl
  | cons x l ih =>
    rw [List.map_cons, IntMap.insert, IntMap.insert]
    split
    · rfl
    · split
      · rfl
      · rw [List.map_cons, ih]

theorem find_moved {α : Type*} (f : Int → α → α) (k : Int) (l : List (Int × α)) :
    IntMap.find k (l.map fun x => (x.1, f x.1 x.2)) = (IntMap.find k l).map (f k) := by
  induction l with
  | nil => rfl
  | cons x l ih =>
    rw [List.map_cons, IntMap.find, IntMap.find]
    by_cases hk : k = x.1
    · rw [if_pos hk, if_pos hk, hk]; rfl
    · rw [if_neg hk, if_neg hk, ih]

theorem vertex_get (F : Frame K) (v : Vertex K) (k : Int) : (F.vertex v).getConstraint k = (v.getConstraint k).map (F.value k) := find_moved F.value k v.constraints

theorem vertex_add (F : Frame K) {v v' : Vertex K} {k : Int} {c : List K} (h : v.addConstraint k c = .ok v') :
    (F.vertex v).addConstraint k (F.value k c) = .ok (F.vertex v') := by
  unfold Vertex.addConstraint at h ⊢
  split at h
  · rename_i hl
    obtain rfl := Except.ok.inj h
    rw [if_pos (by rw [value_length, hl]; rfl)]
    unfold Frame.vertex
    rw [insert_moved F.value]
  · cases h

theorem vertex_mk (F : Frame K) (n : ℕ) : F.vertex (Vertex.mk' n) = Vertex.mk' n := rfl

/-! ## Waypoints -/

theorem copy_moved (F : Frame K) (w : Waypoint K) : (F.waypoint w).copy = F.waypoint w.copy := rfl

theorem map_copy_moved (F : Frame K) (ws : List (Waypoint K)) : (ws.map F.waypoint).map (·.copy) = (ws.map (·.copy)).map F.waypoint := by
  rw [List.map_map, List.map_map]; rfl

theorem setTime_moved (F : Frame K) (w : Waypoint K) (t : K) (i : Int) : ((F.waypoint w).setIndex i).setTime t = F.waypoint ((w.setIndex i).setTime t) := by
  unfold Waypoint.setTime Waypoint.setIndex Frame.waypoint
  simp only [List.map_map]
  congr 1
  refine List.map_congr_left fun m _ => ?_
  unfold Frame.modifier
  simp only [Function.comp]
  cases F.axes <;> rfl

theorem resetWithCurrent_moved (F : Frame K) {w w' : Waypoint K} (h : w.resetWithCurrent = .ok w') : (F.waypoint w).resetWithCurrent = .ok (F.waypoint w') := by
  unfold Waypoint.resetWithCurrent at h ⊢
  obtain ⟨v, h1, h2⟩ := res_bind_ok h
  obtain rfl := Except.ok.inj h2
  have := vertex_add F h1
  rw [show (0 : Int) = ((0 : ℕ) : Int) from rfl, value_toList] at this
  rw [res_ok_bind (x := (F.waypoint w).vertex.addConstraint 0 (F.waypoint w).current.toList) this]
  rfl

theorem reset_moved (F : Frame K) {w w' : Waypoint K} {p : V3 K} (h : w.reset p = .ok w') : (F.waypoint w).reset (F.pos p) = .ok (F.waypoint w') := by
  unfold Waypoint.reset at h ⊢
  exact resetWithCurrent_moved F h

theorem setZero_moved (F : Frame K) {w w' : Waypoint K} {k : ℕ} (hk : k ≠ 0) (h : w.setConstraint k V3.zero = .ok w') :
    (F.waypoint w).setConstraint k V3.zero = .ok (F.waypoint w') := by
  unfold Waypoint.setConstraint at h ⊢
  rw [if_neg (by simpa using hk)] at h ⊢
  obtain ⟨v, h1, h2⟩ := res_bind_ok h
  obtain rfl := Except.ok.inj h2
  have := vertex_add F h1
  rw [value_zero F k hk] at this
  rw [res_ok_bind (x := (F.waypoint w).vertex.addConstraint k (V3.zero : V3 K).toList) this]
  rfl

theorem axis_moved (t a l d ε : K) :
    Waypoint.axisModifier t a l (ε * d) = ({ (Waypoint.axisModifier t a l d).1 with increment := ε * (Waypoint.axisModifier t a l d).1.increment }, (Waypoint.axisModifier t a l d).2) := by
  unfold Waypoint.axisModifier
  split <;> rfl

theorem dir_sub (F : Frame K) (p q : V3 K) : F.dir ⟨p.x - q.x, p.y - q.y, p.z - q.z⟩ = ⟨(F.pos p).x - (F.pos q).x, (F.pos p).y - (F.pos q).y, (F.pos p).z - (F.pos q).z⟩ := by
  unfold Frame.pos Frame.dir
  cases F.axes <;> simp only [Axes.pick, V3.mk.injEq] <;> refine ⟨?_, ?_, ?_⟩ <;> ring

theorem setCurrentPosition_moved (F : Frame K) {w w' : Waypoint K} {p : V3 K} {t : K} (ht : F.axes = .xyz ∨ 0 < t) (h : w.setCurrentPosition p t = .ok w') :
    (F.waypoint w).setCurrentPosition (F.pos p) t = .ok (F.waypoint w') := by
  unfold Waypoint.setCurrentPosition at h ⊢
  obtain ⟨v, h1, h2⟩ := res_bind_ok h
  obtain rfl := Except.ok.inj h2
  have := vertex_add F h1
  rw [show (0 : Int) = ((0 : ℕ) : Int) from rfl, value_toList] at this
  rw [res_ok_bind (x := (F.waypoint w).vertex.addConstraint 0 (F.pos p).toList) this]
  have hd := dir_sub F p w.current
  have hx : (F.pos p).x - (F.waypoint w).current.x = (F.dir ⟨p.x - w.current.x, p.y - w.current.y, p.z - w.current.z⟩).x := by rw [hd]; rfl
  have hy : (F.pos p).y - (F.waypoint w).current.y = (F.dir ⟨p.x - w.current.x, p.y - w.current.y, p.z - w.current.z⟩).y := by rw [hd]; rfl
  have hz : (F.pos p).z - (F.waypoint w).current.z = (F.dir ⟨p.x - w.current.x, p.y - w.current.y, p.z - w.current.z⟩).z := by rw [hd]; rfl
  rw [hx, hy, hz]
  rcases ht with ha | ht
  · unfold Frame.dir Frame.waypoint Frame.modifier
    simp only [List.map_append, List.map_cons, List.map_nil, axis_moved, ha, Axes.pick]
    rfl
  · unfold Frame.dir Frame.waypoint Frame.modifier
    simp only [List.map_append, List.map_cons, List.map_nil, axis_moved]
    unfold Waypoint.axisModifier
    simp only [gt_iff_lt, if_pos ht]
    cases F.axes <;> rfl

theorem ofVertex_moved (F : Frame K) {v : Vertex K} {n : String} {w : Waypoint K} (h : Waypoint.ofVertex v n = .ok w) :
    Waypoint.ofVertex (F.vertex v) n = .ok (F.waypoint w) := by
  unfold Waypoint.ofVertex at h ⊢
  rw [vertex_get]
  cases e : v.getConstraint 0 with
  | none => rw [e] at h; cases h
  | some p =>
    rw [e] at h
    match p, h with
    | x :: y :: z :: l, h =>
      obtain rfl := Except.ok.inj h
      rfl
    | [], h => cases h
    | [x], h => cases h
    | [x, y], h => cases h

/-! ## Compensations -/

theorem abs_sign {ε : K} (h : ε = 1 ∨ ε = -1) (x : K) : |ε * x| = |x| := by
  rcases h with rfl | rfl <;> simp

theorem eval_moved (exp : K → K) {ε : K} (hε : ε = 1 ∨ ε = -1) (m : Modifier K) (t : K) (k : Int) (r : K) (h : m.eval exp t k = .ok r) :
    ({ m with increment := ε * m.increment } : Modifier K).eval exp t k = .ok (ε * r) := by
  unfold Modifier.eval at h ⊢
  simp only [abs_sign hε]
  split at h
  · rename_i hc; rw [if_pos hc]; obtain rfl := Except.ok.inj h; rw [mul_zero]
  · rename_i hc
    rw [if_neg hc]
    split at h
    · rename_i h1
      rw [if_pos h1]
      split at h
      · cases h
      · rename_i h2
        rw [if_neg h2]; obtain rfl := Except.ok.inj h; congr 1; ring
    · rename_i h1
      rw [if_neg h1]
      split at h
      · rename_i h1
        rw [if_pos h1]
        split at h
        · cases h
        · rename_i h2
          rw [if_neg h2]; obtain rfl := Except.ok.inj h; congr 1; ring
      · rename_i h1
        rw [if_neg h1]
        split at h
        · rename_i h1
          rw [if_pos h1]
          split at h
          · cases h
          · rename_i h2
            rw [if_neg h2]; obtain rfl := Except.ok.inj h; congr 1; ring
        · rename_i h1
          rw [if_neg h1]; obtain rfl := Except.ok.inj h; rw [mul_zero]

theorem compensationLoop_cons {exp : K → K} {t : K} {k : Int} {m : V3 (Modifier K)} {a b c : K} (h1 : m.x.eval exp t k = .ok a) (h2 : m.y.eval exp t k = .ok b)
    (h3 : m.z.eval exp t k = .ok c) (ms : List (V3 (Modifier K))) (acc : V3 K) :
    Waypoint.compensationLoop exp t k (m :: ms) acc = Waypoint.compensationLoop exp t k ms ⟨acc.x + a, acc.y + b, acc.z + c⟩ := by
  rw [Waypoint.compensationLoop, res_ok_bind h1, res_ok_bind h2, res_ok_bind h3]

theorem compensationLoop_moved {F : Frame K} (hF : F.Proper) (exp : K → K) (t : K) (k : Int) (ms : List (V3 (Modifier K))) (acc r : V3 K)
    (h : Waypoint.compensationLoop exp t k ms acc = .ok r) : Waypoint.compensationLoop exp t k (ms.map F.modifier) (F.dir acc) = .ok (F.dir r) := by
  induction ms generalizing acc with
  | nil => obtain rfl := Except.ok.inj h; rfl
  | cons m ms ih =>
    rw [Waypoint.compensationLoop] at h
    obtain ⟨a, h1, h⟩ := res_bind_ok h
    obtain ⟨b, h2, h⟩ := res_bind_ok h
    obtain ⟨c, h3, h⟩ := res_bind_ok h
    rw [List.map_cons, ← ih _ h]
    have e : (F.axes.pick m).x.eval exp t k = .ok (F.axes.pick (⟨a, b, c⟩ : V3 K)).x ∧ (F.axes.pick m).y.eval exp t k = .ok (F.axes.pick (⟨a, b, c⟩ : V3 K)).y ∧
        (F.axes.pick m).z.eval exp t k = .ok (F.axes.pick (⟨a, b, c⟩ : V3 K)).z := by
      cases F.axes
      · exact ⟨h1, h2, h3⟩
      · exact ⟨h1, h3, h2⟩
      · exact ⟨h2, h1, h3⟩
      · exact ⟨h2, h3, h1⟩
      · exact ⟨h3, h1, h2⟩
      · exact ⟨h3, h2, h1⟩
    rw [compensationLoop_cons (m := F.modifier m) (eval_moved exp hF.1 _ t k _ e.1) (eval_moved exp hF.2.1 _ t k _ e.2.1) (eval_moved exp hF.2.2 _ t k _ e.2.2)]
    congr 1
    unfold Frame.dir
    cases F.axes <;> simp only [Axes.pick, V3.mk.injEq] <;> refine ⟨?_, ?_, ?_⟩ <;> ring

theorem compensation_moved {F : Frame K} (hF : F.Proper) (exp : K → K) (w : Waypoint K) (t : K) (k : Int) (r : V3 K) (h : w.trajectoryCompensation exp t k = .ok r) :
    (F.waypoint w).trajectoryCompensation exp t k = .ok (F.dir r) := by
  have := compensationLoop_moved hF exp t k w.modifiers V3.zero r h
  rwa [dir_zero] at this

theorem compensateLoop_moved {F : Frame K} (hF : F.Proper) {env env' : Env K} (he : env'.exp = env.exp) (t : K) (k : ℕ) (ws : List (Waypoint K)) (acc r : V3 K)
    (h : Planner.compensateLoop env t k ws acc = .ok r) : Planner.compensateLoop env' t k (ws.map F.waypoint) (act F k acc) = .ok (act F k r) := by
  induction ws generalizing acc with
  | nil => obtain rfl := Except.ok.inj h; rfl
  | cons w ws ih =>
    rw [Planner.compensateLoop] at h
    rw [List.map_cons, Planner.compensateLoop]
    by_cases hn : w.name = ""
    · rw [if_pos hn] at h
      rw [if_pos (show (F.waypoint w).name = "" from hn)]
      exact ih acc h
    · rw [if_neg hn] at h
      rw [if_neg (show ¬ (F.waypoint w).name = "" from hn)]
      obtain ⟨c, h1, h⟩ := res_bind_ok h
      rw [he, res_ok_bind (compensation_moved hF env.exp w t k c h1), ← ih _ h]
      congr 1
      unfold act
      by_cases hk : k = 0
      · simp only [if_pos hk]
        unfold Frame.pos Frame.dir
        cases F.axes <;> simp only [V3.add, Axes.pick, V3.mk.injEq] <;> refine ⟨?_, ?_, ?_⟩ <;> ring
      · simp only [if_neg hk]
        unfold Frame.dir
        cases F.axes <;> simp only [V3.add, Axes.pick, V3.mk.injEq] <;> refine ⟨?_, ?_, ?_⟩ <;> ring

/-- The members that do not change. -/
macro "same_rest " h:term : tactic => `(tactic| first | exact ($h).params | exact ($h).newParams | exact ($h).traj | exact ($h).future | exact ($h).fromScratch | exact ($h).vehicle | exact ($h).dyn | exact ($h).next | exact ($h).toAdd | exact ($h).toSet | exact ($h).toModify | exact ($h).generateNew | exact ($h).computing | exact ($h).regenerated | exact ($h).timeConstant | exact ($h).pc)

/-! ## Evaluation -/

theorem clampTime_le (l m : K) : Planner.clampTime l m ≤ m := by
  unfold Planner.clampTime
  simp only
  generalize (if l < 0 then 0 else l) = x
  split
  · exact le_refl m
  · rename_i h; exact not_lt.mp h

variable {F : Frame K} {env env' : Env K} {s s' : Planner K}

theorem evaluateModified_moved (hF : F.Proper) (he : env'.exp = env.exp) (hd : s'.dyn = s.dyn.map F.waypoint) {tr tr' : Trajectory K} (ht : F.SameFlight tr tr')
    (g l : K) (k : ℕ) (hk : k ≤ 2) (r : V3 K) (h : s.evaluateModified env tr g l k = .ok r) : s'.evaluateModified env' tr' g l k = .ok (act F k r) := by
  unfold Planner.evaluateModified at h ⊢
  obtain ⟨c, h1, h⟩ := res_bind_ok h
  obtain ⟨p, h2, h⟩ := res_bind_ok h
  rw [ht.2.1, res_ok_bind (ht.2.2 _ (clampTime_le _ _) k c hk h1), res_ok_bind (ofList_moved F k h2), hd]
  split at h
  · rename_i hg
    rw [if_pos hg]
    exact compensateLoop_moved hF he g k s.dyn p r h
  · rename_i hg
    rw [if_neg hg]
    obtain rfl := Except.ok.inj h
    rfl

theorem getReferences_moved (hF : F.Proper) (he : env'.exp = env.exp) (hd : s'.dyn = s.dyn.map F.waypoint) {tr tr' : Trajectory K} (ht : F.SameFlight tr tr')
    (g l : K) (o : Bool) (r : References K) (h : s.getReferences env tr g l o = .ok r) : s'.getReferences env' tr' g l o = .ok (F.references r) := by
  unfold Planner.getReferences at h ⊢
  obtain ⟨p, h1, h⟩ := res_bind_ok h
  rw [res_ok_bind (evaluateModified_moved hF he hd ht g l 0 (by omega) p h1)]
  split at h
  · rename_i ho
    rw [if_pos ho]
    obtain rfl := Except.ok.inj h
    rfl
  · rename_i ho
    rw [if_neg ho]
    obtain ⟨v, h2, h⟩ := res_bind_ok h
    obtain ⟨a, h3, h⟩ := res_bind_ok h
    rw [res_ok_bind (evaluateModified_moved hF he hd ht g l 1 (by omega) v h2), res_ok_bind (evaluateModified_moved hF he hd ht g l 2 (by omega) a h3)]
    obtain rfl := Except.ok.inj h
    rfl

theorem distSq_moved (hF : F.Proper) (p q : V3 K) : Planner.distSq (F.pos p) (F.pos q) = Planner.distSq p q := by
  have hs : ∀ ε : K, (ε = 1 ∨ ε = -1) → ε * ε = 1 := by rintro ε (rfl | rfl) <;> ring
  have hd := dir_sub F p q
  unfold Planner.distSq
  rw [show (F.pos p).x - (F.pos q).x = (F.dir ⟨p.x - q.x, p.y - q.y, p.z - q.z⟩).x by rw [hd],
    show (F.pos p).y - (F.pos q).y = (F.dir ⟨p.x - q.x, p.y - q.y, p.z - q.z⟩).y by rw [hd],
    show (F.pos p).z - (F.pos q).z = (F.dir ⟨p.x - q.x, p.y - q.y, p.z - q.z⟩).z by rw [hd]]
  generalize p.x - q.x = a
  generalize p.y - q.y = b
  generalize p.z - q.z = c
  unfold Frame.dir
  have hm : ∀ ε x : K, (ε = 1 ∨ ε = -1) → ε * x * (ε * x) = x * x := fun ε x h => by rw [mul_mul_mul_comm, hs ε h, one_mul]
  simp only [hm _ _ hF.1, hm _ _ hF.2.1, hm _ _ hF.2.2]
  cases F.axes <;> simp only [Axes.pick] <;> ring

theorem fitLoop_moved (hF : F.Proper) (he : env'.exp = env.exp) (hd : s'.dyn = s.dyn.map F.waypoint) (hn : s'.newParams = s.newParams) {tr tr' : Trajectory K}
    (ht : F.SameFlight tr tr') (target : V3 K) (n i : ℕ) (d m : K) (r : K × K) (h : s.fitLoop env tr target n i d m = .ok r) :
    s'.fitLoop env' tr' (F.pos target) n i d m = .ok r := by
  induction n generalizing i d m with
  | zero => exact h
  | succ n ih =>
    rw [Planner.fitLoop] at h ⊢
    obtain ⟨p, h1, h⟩ := res_bind_ok h
    rw [hn, res_ok_bind (evaluateModified_moved hF he hd ht _ _ 0 (by omega) p h1)]
    rw [show act F 0 p = F.pos p from rfl, distSq_moved hF]
    split at h
    · rename_i hc; rw [if_pos hc]; exact ih _ _ _ h
    · rename_i hc; rw [if_neg hc]; exact ih _ _ _ h

theorem timeFitting_moved (hF : F.Proper) (he : env'.exp = env.exp) (hs : F.Same s s') {tr tr' : Trajectory K} (ht : F.SameFlight tr tr') (target : V3 K)
    (r : Planner K) (h : s.timeFitting env tr target = .ok r) :
    ∃ x, r = { s with newParams := { s.newParams with tOffset := x } } ∧
      s'.timeFitting env' tr' (F.pos target) = .ok { s' with newParams := { s'.newParams with tOffset := x } } := by
  unfold Planner.timeFitting at h ⊢
  obtain ⟨p, h1, h⟩ := res_bind_ok h
  obtain ⟨f, h2, h⟩ := res_bind_ok h
  obtain rfl := Except.ok.inj h
  refine ⟨_, rfl, ?_⟩
  have hc : s'.computationTime = s.computationTime := by unfold Planner.computationTime; rw [hs.timeConstant]
  rw [hc, hs.params]
  rw [show s'.newParams.gtlg = s.newParams.gtlg by rw [hs.newParams], res_ok_bind (evaluateModified_moved hF he hs.dyn ht _ _ 0 (by omega) p h1),
    show act F 0 p = F.pos p from rfl, distSq_moved hF, res_ok_bind (fitLoop_moved hF he hs.dyn hs.newParams ht target _ _ _ _ f h2)]
  rfl

theorem swapTrajectory_moved (hF : F.Proper) (he : env'.exp = env.exp) (hs : F.Same s s') (r : Planner K) (h : s.swapTrajectory env = .ok r) :
    ∃ r', s'.swapTrajectory env' = .ok r' ∧ F.Same r r' := by
  unfold Planner.swapTrajectory at h ⊢
  have hfut := hs.future
  revert h
  generalize hf : s.future = f at hfut ⊢
  generalize hf' : s'.future = f' at hfut ⊢
  cases hfut with
  | invalid => intro h; cases h
  | launched => intro h; cases h
  | running v => intro h; cases h
  | failed => intro h; cases h
  | @ready tr tr' ht =>
    intro h
    simp only at h ⊢
    have hs0 : F.Same { s with future := .invalid } { s' with future := .invalid } := by
      constructor <;> first | exact .invalid | same_rest hs
    by_cases hfs : s.fromScratch = true
    · rw [if_pos hfs] at h
      rw [if_pos (hs.fromScratch.trans hfs)]
      obtain ⟨q, h3, h4⟩ := res_bind_ok h
      obtain rfl := Except.ok.inj h4
      obtain ⟨x, rfl, h5⟩ := timeFitting_moved hF he hs0 ht _ _ h3
      have hv := hs.vehicle
      generalize hvv : s'.vehicle = u at hv
      subst hv
      rw [res_ok_bind (by rw [hvv] at h5; exact h5)]
      refine ⟨_, rfl, ?_⟩
      constructor <;> first | exact .invalid | exact Option.Rel.some ht | rfl | (simp only [hs.newParams]; done) | same_rest hs
    · rw [if_neg hfs] at h
      rw [if_neg (by rw [hs.fromScratch]; exact hfs)]
      have htr := hs.traj
      revert h
      generalize hg : s.traj = o at htr ⊢
      generalize hg' : s'.traj = o' at htr ⊢
      cases htr with
      | none => intro h1; cases h1
      | @some old old' hto =>
        intro h
        simp only at h ⊢
        obtain ⟨target, h3, h⟩ := res_bind_ok h
        obtain ⟨q, h4, h⟩ := res_bind_ok h
        obtain rfl := Except.ok.inj h
        obtain ⟨x, hq, h5⟩ := timeFitting_moved hF he (by rw [hg, hg'] at hs0; exact hs0) ht _ _ h4
        subst hq
        rw [← hs.params] at h3
        have h6 := evaluateModified_moved (s' := { s' with future := .invalid, traj := some old' }) hF he hs.dyn hto _ _ 0 (by omega) target h3
        rw [res_ok_bind h6, res_ok_bind (show Planner.timeFitting env' { s' with future := .invalid, traj := some old' } tr' (act F 0 target) = _ from h5)]
        refine ⟨_, rfl, ?_⟩
        constructor <;> first | exact .invalid | exact Option.Rel.some ht | rfl | (simp only [hs.newParams]; done) | same_rest hs

theorem swapDynamicWaypoints_moved (hs : F.Same s s') : F.Same s.swapDynamicWaypoints s'.swapDynamicWaypoints := by
  unfold Planner.swapDynamicWaypoints
  constructor <;> first | (simp only [hs.next, map_copy_moved]; done) | same_rest hs

theorem valid_moved {f f' : Future K} (h : F.SameFuture f f') : f'.valid = f.valid ∧ f'.isReady = f.isReady := by cases h <;> exact ⟨rfl, rfl⟩

theorem isNone_moved (hs : F.Same s s') : s'.traj.isNone = s.traj.isNone ∧ s'.traj.isSome = s.traj.isSome := by
  have := hs.traj
  generalize s.traj = o at this ⊢
  generalize s'.traj = o' at this ⊢
  cases this <;> exact ⟨rfl, rfl⟩

/-- The same outcome of a call that may have to wait. -/
def SameCall {α : Type*} (F : Frame K) (f : α → α) (r r' : Option (α × Planner K)) : Prop := Option.Rel (fun a a' => a'.1 = f a.1 ∧ F.Same a.2 a'.2) r r'

theorem check_moved (hF : F.Proper) (he : env'.exp = env.exp) (hs : F.Same s s') (r : Option (Planner K)) (h : s.checkTrajectoryGenerated env = .ok r) :
    ∃ r', s'.checkTrajectoryGenerated env' = .ok r' ∧ Option.Rel F.Same r r' := by
  unfold Planner.checkTrajectoryGenerated at h ⊢
  rw [(isNone_moved hs).1, (valid_moved hs.future).1, (valid_moved hs.future).2, hs.computing]
  split at h
  · rename_i hc
    rw [if_pos hc]
    obtain rfl := Except.ok.inj h
    exact ⟨_, rfl, .none⟩
  · rename_i hc
    rw [if_neg hc]
    split at h
    · rename_i h1
      rw [if_pos h1]
      obtain ⟨a, h2, h⟩ := res_bind_ok h
      obtain rfl := Except.ok.inj h
      obtain ⟨a', h3, h4⟩ := swapTrajectory_moved hF he hs a h2
      rw [res_ok_bind h3]
      refine ⟨_, rfl, .some ?_⟩
      have h5 := swapDynamicWaypoints_moved h4
      constructor <;> first | rfl | same_rest h5
    · rename_i h1
      rw [if_neg h1]
      obtain rfl := Except.ok.inj h
      exact ⟨_, rfl, .some hs⟩

theorem evaluateNow_moved (hF : F.Proper) (he : env'.exp = env.exp) (hs : F.Same s s') (t : K) (o f : Bool) (r : References K × Planner K)
    (h : s.evaluateNow env t o f = .ok r) : ∃ r', s'.evaluateNow env' t o f = .ok r' ∧ r'.1 = F.references r.1 ∧ F.Same r.2 r'.2 := by
  unfold Planner.evaluateNow at h ⊢
  have htr := hs.traj
  revert h
  generalize hg : s.traj = a at htr ⊢
  generalize hg' : s'.traj = a' at htr ⊢
  cases htr with
  | none => intro h; cases h
  | @some tr tr' ht =>
    intro h
    simp only at h ⊢
    cases f with
    | true =>
      simp only [if_true] at h ⊢
      obtain ⟨x, h1, h⟩ := res_bind_ok h
      obtain rfl := Except.ok.inj h
      rw [hs.params, res_ok_bind (getReferences_moved hF he hs.dyn ht _ _ o x h1)]
      exact ⟨_, rfl, rfl, hs⟩
    | false =>
      simp only [Bool.false_eq_true, if_false] at h ⊢
      obtain ⟨x, h1, h⟩ := res_bind_ok h
      obtain rfl := Except.ok.inj h
      rw [hs.params]
      refine ⟨_, res_ok_bind (getReferences_moved (s' := { s' with params := { s.params with lastGlobal := t, lastLocal := t - s.params.gtlg }, traj := some tr' }) hF he hs.dyn ht _ _ o x h1), rfl, ?_⟩
      constructor <;> first | rfl | exact .some ht | same_rest hs

theorem evaluate_moved (hF : F.Proper) (he : env'.exp = env.exp) (hs : F.Same s s') (t : K) (o f : Bool) (r : Option (References K × Planner K))
    (h : s.evaluateTrajectory env t o f = .ok r) : ∃ r', s'.evaluateTrajectory env' t o f = .ok r' ∧ SameCall F F.references r r' := by
  unfold Planner.evaluateTrajectory at h ⊢
  obtain ⟨a, h1, h⟩ := res_bind_ok h
  obtain ⟨a', h2, h3⟩ := check_moved hF he hs a h1
  rw [res_ok_bind h2]
  cases h3 with
  | none => obtain rfl := Except.ok.inj h; exact ⟨_, rfl, .none⟩
  | some h4 =>
    simp only at h ⊢
    obtain ⟨b, h5, h⟩ := res_bind_ok h
    obtain rfl := Except.ok.inj h
    obtain ⟨b', h6, h7⟩ := evaluateNow_moved hF he h4 t o f b h5
    rw [res_ok_bind h6]
    exact ⟨_, rfl, .some h7⟩

theorem ensure_moved (hF : F.Proper) (he : env'.exp = env.exp) (hs : F.Same s s') (r : Option (Planner K)) (h : s.ensureTrajectory env = .ok r) :
    ∃ r', s'.ensureTrajectory env' = .ok r' ∧ Option.Rel F.Same r r' := by
  unfold Planner.ensureTrajectory at h ⊢
  rw [(isNone_moved hs).2]
  split at h
  · rename_i hc; rw [if_pos hc]; obtain rfl := Except.ok.inj h; exact ⟨_, rfl, .some hs⟩
  · rename_i hc; rw [if_neg hc]; exact check_moved hF he hs r h

theorem getMaxTime_moved (hF : F.Proper) (he : env'.exp = env.exp) (hs : F.Same s s') (r : Option (K × Planner K)) (h : s.getMaxTime env = .ok r) :
    ∃ r', s'.getMaxTime env' = .ok r' ∧ SameCall F id r r' := by
  unfold Planner.getMaxTime at h ⊢
  obtain ⟨a, h1, h⟩ := res_bind_ok h
  obtain ⟨a', h2, h3⟩ := ensure_moved hF he hs a h1
  rw [res_ok_bind h2]
  cases h3 with
  | none => obtain rfl := Except.ok.inj h; exact ⟨_, rfl, .none⟩
  | @some b b' h4 =>
    simp only at h ⊢
    have htr := h4.traj
    revert h
    generalize hg : b.traj = a at htr ⊢
    generalize hg' : b'.traj = a' at htr ⊢
    cases htr with
    | none => intro h; cases h
    | @some tr tr' ht =>
      intro h
      obtain rfl := Except.ok.inj h
      refine ⟨_, rfl, .some ⟨?_, h4⟩⟩
      simp only [ht.2.1, h4.params, id]

theorem getMinTime_moved (hF : F.Proper) (he : env'.exp = env.exp) (hs : F.Same s s') (r : Option (K × Planner K)) (h : s.getMinTime env = .ok r) :
    ∃ r', s'.getMinTime env' = .ok r' ∧ SameCall F id r r' := by
  unfold Planner.getMinTime at h ⊢
  obtain ⟨a, h1, h⟩ := res_bind_ok h
  obtain ⟨a', h2, h3⟩ := ensure_moved hF he hs a h1
  rw [res_ok_bind h2]
  cases h3 with
  | none => obtain rfl := Except.ok.inj h; exact ⟨_, rfl, .none⟩
  | @some b b' h4 =>
    simp only at h ⊢
    have htr := h4.traj
    revert h
    generalize hg : b.traj = a at htr ⊢
    generalize hg' : b'.traj = a' at htr ⊢
    cases htr with
    | none => intro h; cases h
    | @some tr tr' ht =>
      intro h
      obtain rfl := Except.ok.inj h
      refine ⟨_, rfl, .some ⟨?_, h4⟩⟩
      simp only [h4.params, id]

theorem getDynamicWaypoints_moved (hF : F.Proper) (he : env'.exp = env.exp) (hs : F.Same s s') (r : Option (List (Waypoint K) × Planner K))
    (h : s.getDynamicWaypoints env = .ok r) : ∃ r', s'.getDynamicWaypoints env' = .ok r' ∧ SameCall F (List.map F.waypoint) r r' := by
  unfold Planner.getDynamicWaypoints at h ⊢
  obtain ⟨a, h1, h⟩ := res_bind_ok h
  obtain ⟨a', h2, h3⟩ := check_moved hF he hs a h1
  rw [res_ok_bind h2]
  cases h3 with
  | none => obtain rfl := Except.ok.inj h; exact ⟨_, rfl, .none⟩
  | @some b b' h4 =>
    obtain rfl := Except.ok.inj h
    refine ⟨_, rfl, .some ⟨?_, h4⟩⟩
    simp only [h4.dyn, map_copy_moved]

/-! ## What does not change -/

theorem filter_moved (ws : List (Waypoint K)) (p : Waypoint K → Bool) (hp : ∀ w, p (F.waypoint w) = p w) : (ws.map F.waypoint).filter p = (ws.filter p).map F.waypoint := by
  rw [List.filter_map, show p ∘ F.waypoint = p from funext hp]

theorem nextWaypoints_moved (hs : F.Same s s') : s'.getNextTrajectoryWaypoints = s.getNextTrajectoryWaypoints.map F.waypoint := by
  unfold Planner.getNextTrajectoryWaypoints
  rw [hs.dyn, hs.params, filter_moved s.dyn _ fun _ => rfl, map_copy_moved]

theorem discount_moved (ws : List (Waypoint K)) (n : Int) : Planner.discountStitching (ws.map F.waypoint) n = Planner.discountStitching ws n := by
  induction ws generalizing n with
  | nil => rfl
  | cons w ws ih => rw [List.map_cons, Planner.discountStitching, Planner.discountStitching, ih]; rfl

theorem remaining_moved (hs : F.Same s s') : s'.getRemainingWaypoints = s.getRemainingWaypoints := by
  unfold Planner.getRemainingWaypoints
  simp only [nextWaypoints_moved hs, discount_moved, List.length_map]

theorem computationTime_moved (hs : F.Same s s') : s'.computationTime = s.computationTime := by unfold Planner.computationTime; rw [hs.timeConstant]

theorem zoneLoop_moved (l z : K) (ws : List (Waypoint K)) : Planner.zoneLoop l z (ws.map F.waypoint) = Planner.zoneLoop l z ws := by
  induction ws with
  | nil => rfl
  | cons w ws ih => rw [List.map_cons, Planner.zoneLoop, Planner.zoneLoop, ih]; rfl

theorem canGenerate_moved (hs : F.Same s s') : s'.checkIfTrajectoryCanBeGenerated = s.checkIfTrajectoryCanBeGenerated := by
  unfold Planner.checkIfTrajectoryCanBeGenerated Planner.checkInSecurityZone
  rw [hs.computing, hs.params, computationTime_moved hs, hs.dyn]
  have htr := hs.traj
  generalize s.traj = a at htr ⊢
  generalize s'.traj = a' at htr ⊢
  cases htr with
  | none => rfl
  | some _ => simp only [zoneLoop_moved]

theorem checkStitch_moved (hs : F.Same s s') : s'.checkStitchTrajectory = s.checkStitchTrajectory := by
  unfold Planner.checkStitchTrajectory
  rw [hs.params, computationTime_moved hs]
  have htr := hs.traj
  generalize s.traj = a at htr ⊢
  generalize s'.traj = a' at htr ⊢
  cases htr with
  | none => rfl
  | some ht => simp only [ht.2.1]

/-! ## Requests -/

theorem put_moved (n : String) (p : V3 K) (ms : List (String × V3 K)) :
    Planner.putModification n (F.pos p) (ms.map fun m => (m.1, F.pos m.2)) = (Planner.putModification n p ms).map fun m => (m.1, F.pos m.2) := by
  induction ms with
  | nil => rfl
  | cons m ms ih =>
    rw [List.map_cons, Planner.putModification, Planner.putModification, ih]
    simp only
    split <;> rfl

theorem modify_moved (hs : F.Same s s') (n : String) (p : V3 K) (g : Bool) : F.Same (s.modifyWaypoint n p g) (s'.modifyWaypoint n (F.pos p) g) := by
  unfold Planner.modifyWaypoint
  constructor <;> first | rfl | (simp only [hs.toModify, put_moved]; done) | same_rest hs

theorem modifyAll_moved (ms : List (String × V3 K)) : ∀ {s s' : Planner K}, F.Same s s' → F.Same (ms.foldl (fun s m => s.modifyWaypoint m.1 m.2 false) s)
    ((ms.map fun m => (m.1, F.pos m.2)).foldl (fun s m => s.modifyWaypoint m.1 m.2 false) s') := by
  induction ms with
  | nil => exact fun hs => hs
  | cons m ms ih => exact fun hs => ih (modify_moved hs m.1 m.2 false)

theorem modifyWaypoints_moved (hs : F.Same s s') (ms : List (String × V3 K)) :
    F.Same (s.modifyWaypoints ms) (s'.modifyWaypoints (ms.map fun m => (m.1, F.pos m.2))) := by
  have h := modifyAll_moved ms hs
  unfold Planner.modifyWaypoints
  constructor <;> first | rfl | same_rest h

theorem setWaypoints_moved (hs : F.Same s s') (ws : List (Waypoint K)) : F.Same (s.setWaypoints ws) (s'.setWaypoints (ws.map F.waypoint)) := by
  unfold Planner.setWaypoints
  constructor <;> first | rfl | exact map_copy_moved F ws | same_rest hs

theorem append_moved (hs : F.Same s s') (w : Waypoint K) : F.Same (s.appendWaypoint w) (s'.appendWaypoint (F.waypoint w)) := by
  unfold Planner.appendWaypoint
  constructor <;> first | rfl | (simp only [hs.toAdd, List.map_append]; rfl) | same_rest hs

/-! ## The worker -/

theorem resetThrough_moved (n : String) (p : V3 K) (ws r : List (Waypoint K)) (h : resetThrough n p ws = .ok r) :
    resetThrough n (F.pos p) (ws.map F.waypoint) = .ok (r.map F.waypoint) := by
  unfold resetThrough at h ⊢
  split at h
  · rename_i hn; rw [if_pos hn]; obtain rfl := Except.ok.inj h; rfl
  · rename_i hn
    rw [if_neg hn]
    refine mapM_moved F.waypoint F.waypoint (fun w w' hw => ?_) ws r h
    split at hw
    · rename_i hc; rw [if_pos (show (F.waypoint w).name = n from hc)]; exact reset_moved F hw
    · rename_i hc; rw [if_neg (show ¬ (F.waypoint w).name = n from hc)]; obtain rfl := Except.ok.inj hw; rfl

theorem resetAll_moved (ms : List (String × V3 K)) (ws r : List (Waypoint K)) (h : resetAll ms ws = .ok r) :
    resetAll (ms.map fun m => (m.1, F.pos m.2)) (ws.map F.waypoint) = .ok (r.map F.waypoint) := by
  induction ms generalizing ws with
  | nil => obtain rfl := Except.ok.inj h; rfl
  | cons m ms ih =>
    obtain ⟨n, p⟩ := m
    rw [resetAll] at h
    obtain ⟨a, h1, h⟩ := res_bind_ok h
    rw [List.map_cons, resetAll, res_ok_bind (resetThrough_moved n p ws a h1)]
    exact ih a h

theorem generate_moved (hs : F.Same s s') (r : List (Waypoint K) × Planner K) (h : s.generateWaypoints = .ok r) :
    ∃ r', s'.generateWaypoints = .ok (r.1.map F.waypoint, r') ∧ F.Same r.2 r' := by
  unfold Planner.generateWaypoints at h ⊢
  have fin : ∀ base, (do let all ← resetAll s.toModify (base ++ s.toAdd.map (·.copy)); pure (all, { s with toSet := [], toAdd := [], toModify := [] })) = Except.ok r →
      ∃ r', (do let all ← resetAll s'.toModify (base.map F.waypoint ++ s'.toAdd.map (·.copy)); pure (all, { s' with toSet := [], toAdd := [], toModify := [] }) : Res _) =
        Except.ok (r.1.map F.waypoint, r') ∧ F.Same r.2 r' := by
    intro base h
    obtain ⟨all, h2, h⟩ := res_bind_ok h
    obtain rfl := Except.ok.inj h
    have h4 := resetAll_moved (F := F) s.toModify _ all h2
    rw [List.map_append, ← map_copy_moved, ← hs.toModify, ← hs.toAdd] at h4
    rw [res_ok_bind h4]
    refine ⟨_, rfl, ?_⟩
    constructor <;> first | rfl | same_rest hs
  have hl : s'.toSet.length = s.toSet.length := by rw [hs.toSet, List.length_map]
  rw [hl]
  by_cases hz : s.toSet.length = 0
  · simp only [if_pos hz] at h ⊢
    obtain ⟨base, h1, h⟩ := res_bind_ok h
    have h3 : (s'.filterPassed (s'.dyn.map (·.copy))).mapM (·.resetWithCurrent) = Except.ok (base.map F.waypoint) := by
      unfold Planner.filterPassed at h1 ⊢
      rw [hs.dyn, hs.params, map_copy_moved, filter_moved _ _ fun _ => rfl]
      exact mapM_moved F.waypoint F.waypoint (fun w w' hw => resetWithCurrent_moved F hw) _ _ h1
    rw [res_ok_bind h3]
    exact fin base h
  · simp only [if_neg hz] at h ⊢
    obtain ⟨base, h1, h⟩ := res_bind_ok h
    obtain rfl := Except.ok.inj h1
    rw [hs.toSet, map_copy_moved]
    exact fin _ h

theorem stitchPoint_moved (hF : F.Proper) (he : env'.exp = env.exp) (hs : F.Same s s') {tr tr' : Trajectory K} (ht : F.SameFlight tr tr') (l : K) (b : Bool)
    (w : Waypoint K) (h : s.stitchPoint env tr l b = .ok w) : s'.stitchPoint env' tr' l b = .ok (F.waypoint w) := by
  unfold Planner.stitchPoint at h ⊢
  obtain ⟨r, h1, h⟩ := res_bind_ok h
  obtain ⟨v, h2, h⟩ := res_bind_ok h
  have h4 := vertex_add F h2
  rw [show (0 : Int) = ((0 : ℕ) : Int) from rfl, value_toList, vertex_mk] at h4
  rw [hs.params, res_ok_bind (getReferences_moved hF he hs.dyn ht _ _ _ r h1)]
  rw [res_ok_bind (x := (Vertex.mk' 3 : Vertex K).addConstraint 0 (F.references r).position.toList) h4]
  have hz : ∀ (k : ℕ), k ≠ 0 → ∀ o : Option (V3 K), F.value k (o.getD V3.zero).toList = ((o.map F.dir).getD V3.zero).toList := by
    intro k hk o
    cases o with
    | none => exact value_zero F k hk
    | some p => rw [Option.getD_some, value_toList]; unfold act; rw [if_neg hk]; rfl
  cases b with
  | true =>
    simp only [if_true] at h ⊢
    obtain ⟨v1, h6, h⟩ := res_bind_ok h
    obtain ⟨v2, h7, h⟩ := res_bind_ok h
    have h8 := vertex_add F h6
    have h9 := vertex_add F h7
    rw [show (1 : Int) = ((1 : ℕ) : Int) from rfl, hz 1 (by omega)] at h8
    rw [show (2 : Int) = ((2 : ℕ) : Int) from rfl, hz 2 (by omega)] at h9
    rw [res_ok_bind (x := (F.vertex v).addConstraint 1 ((F.references r).velocity.getD V3.zero).toList) h8,
      res_ok_bind (x := (F.vertex v1).addConstraint 2 ((F.references r).acceleration.getD V3.zero).toList) h9]
    exact ofVertex_moved F h
  | false =>
    simp only [Bool.false_eq_true, if_false] at h ⊢
    exact ofVertex_moved F h

theorem stitch_moved (hF : F.Proper) (he : env'.exp = env.exp) (hs : F.Same s s') (ws r : List (Waypoint K)) (h : s.stitch env ws = .ok r) :
    s'.stitch env' (ws.map F.waypoint) = .ok (r.map F.waypoint) := by
  unfold Planner.stitch at h ⊢
  have htr := hs.traj
  revert h
  generalize hg : s.traj = a at htr ⊢
  generalize hg' : s'.traj = a' at htr ⊢
  cases htr with
  | none => intro h; cases h
  | @some tr tr' ht =>
    intro h
    simp only at h ⊢
    obtain ⟨w0, h1, h⟩ := res_bind_ok h
    obtain ⟨w1, h2, h⟩ := res_bind_ok h
    obtain rfl := Except.ok.inj h
    rw [hs.params, hs.newParams, computationTime_moved hs, res_ok_bind (stitchPoint_moved hF he hs ht _ _ w0 h1), res_ok_bind (stitchPoint_moved hF he hs ht _ _ w1 h2),
      filter_moved ws _ fun _ => rfl, map_copy_moved]
    rfl

theorem drone_moved (hs : F.Same s s') (ws r : List (Waypoint K)) (h : s.appendDronePosition ws = .ok r) :
    s'.appendDronePosition (ws.map F.waypoint) = .ok (r.map F.waypoint) := by
  unfold Planner.appendDronePosition at h ⊢
  obtain ⟨w, h1, h⟩ := res_bind_ok h
  obtain ⟨w1, h2, h⟩ := res_bind_ok h
  obtain ⟨w2, h3, h⟩ := res_bind_ok h
  obtain rfl := Except.ok.inj h
  have h4 : (Waypoint.default V3.zero V3.zero : Waypoint K).reset (F.pos s.vehicle) = .ok (F.waypoint w) := by
    have := reset_moved F h1
    rw [← this]
    rfl
  rw [hs.vehicle, res_ok_bind h4, res_ok_bind (x := (F.waypoint w).setConstraint 1 V3.zero) (setZero_moved F (k := 1) (by omega) h2),
    res_ok_bind (x := (F.waypoint w1).setConstraint 2 V3.zero) (setZero_moved F (k := 2) (by omega) h3)]
  rfl

theorem applyLoop_moved (n : String) (p : V3 K) (t : K) (hg : F.axes = .xyz ∨ 0 < t) (ws : List (Waypoint K)) (r : Bool × List (Waypoint K)) (h : Planner.applyLoop n p t ws = .ok r) :
    Planner.applyLoop n (F.pos p) t (ws.map F.waypoint) = .ok (r.1, r.2.map F.waypoint) := by
  induction ws generalizing r with
  | nil => obtain rfl := Except.ok.inj h; rfl
  | cons w ws ih =>
    rw [Planner.applyLoop] at h
    obtain ⟨a, h1, h⟩ := res_bind_ok h
    rw [List.map_cons, Planner.applyLoop, res_ok_bind (ih a h1)]
    split at h
    · rename_i hc
      rw [if_pos (show (F.waypoint w).name = n ∧ (F.waypoint w).name ≠ "" from hc)]
      obtain ⟨w', h2, h⟩ := res_bind_ok h
      obtain rfl := Except.ok.inj h
      rw [res_ok_bind (setCurrentPosition_moved F hg h2)]
      rfl
    · rename_i hc
      rw [if_neg (show ¬ ((F.waypoint w).name = n ∧ (F.waypoint w).name ≠ "") from hc)]
      obtain rfl := Except.ok.inj h
      rfl

theorem applyAll_moved (ms : List (String × V3 K)) : ∀ {s s' r : Planner K}, F.Same s s' → (F.axes = .xyz ∨ 0 < s.params.lastGlobal) → Planner.applyAll ms s = .ok r →
    ∃ r', Planner.applyAll (ms.map fun m => (m.1, F.pos m.2)) s' = .ok r' ∧ F.Same r r' := by
  induction ms with
  | nil => intro s s' r hs _ h; obtain rfl := Except.ok.inj h; exact ⟨_, rfl, hs⟩
  | cons m ms ih =>
    intro s s' r hs hg h
    obtain ⟨n, p⟩ := m
    rw [Planner.applyAll] at h
    obtain ⟨a, h1, h⟩ := res_bind_ok h
    unfold Planner.applyWaypointModification at h1
    obtain ⟨b, h2, h1⟩ := res_bind_ok h1
    obtain rfl := Except.ok.inj h1
    have h3 := applyLoop_moved (F := F) n p _ hg _ b h2
    rw [← hs.dyn, ← hs.params] at h3
    rw [List.map_cons, Planner.applyAll]
    have h4 : s'.applyWaypointModification n (F.pos p) = .ok { s' with dyn := b.2.map F.waypoint, regenerated := s'.regenerated || b.1 } := by
      unfold Planner.applyWaypointModification
      rw [res_ok_bind h3]
      rfl
    rw [res_ok_bind h4]
    have h5 : F.Same { s with dyn := b.2, regenerated := s.regenerated || b.1 } { s' with dyn := b.2.map F.waypoint, regenerated := s'.regenerated || b.1 } := by
      constructor <;> first | rfl | (simp only [hs.regenerated]; done) | same_rest hs
    exact ih h5 hg h

theorem worker_moved (hF : F.Proper) (he : env'.exp = env.exp) (hs : F.Same s s') (hg : F.axes = .xyz ∨ (s.pc = .apply → 0 < s.params.lastGlobal)) (r : Planner K) (h : s.workerStep env = .ok r) :
    ∃ r', s'.workerStep env' = .ok r' ∧ F.Same r r' := by
  unfold Planner.workerStep at h ⊢
  rw [hs.pc]
  revert h
  cases hp : s.pc with
  | top =>
    simp only
    rw [hs.generateNew, canGenerate_moved hs, hs.toModify, List.isEmpty_map, hs.computing]
    intro h
    split at h
    · rename_i hc
      rw [if_pos hc]
      obtain rfl := Except.ok.inj h
      refine ⟨_, rfl, ?_⟩
      constructor <;> first | rfl | same_rest hs
    · rename_i hc
      rw [if_neg hc]
      split at h
      · rename_i hc
        rw [if_pos hc]
        obtain rfl := Except.ok.inj h
        refine ⟨_, rfl, ?_⟩
        constructor <;> first | rfl | same_rest hs
      · rename_i hc
        rw [if_neg hc]
        obtain rfl := Except.ok.inj h
        exact ⟨_, rfl, hs⟩
  | collect =>
    simp only
    intro h
    obtain ⟨⟨ws, a⟩, h1, h⟩ := res_bind_ok h
    obtain rfl := Except.ok.inj h
    obtain ⟨a', h2, h3⟩ := generate_moved hs _ h1
    rw [res_ok_bind h2]
    refine ⟨_, rfl, ?_⟩
    constructor <;> first | rfl | same_rest h3
  | collected =>
    simp only
    rw [hs.next, List.length_map]
    intro h
    split at h
    · rename_i hc
      rw [if_pos hc]
      obtain rfl := Except.ok.inj h
      refine ⟨_, rfl, ?_⟩
      constructor <;> first | rfl | same_rest hs
    · rename_i hc
      rw [if_neg hc]
      obtain rfl := Except.ok.inj h
      refine ⟨_, rfl, ?_⟩
      constructor <;> first | rfl | (simp only [hs.params]; done) | same_rest hs
  | snapshotted =>
    simp only
    rw [checkStitch_moved hs]
    intro h
    split at h
    · rename_i hc
      rw [if_pos hc]
      obtain ⟨ws, h1, h⟩ := res_bind_ok h
      obtain rfl := Except.ok.inj h
      have h2 := stitch_moved hF he hs _ ws h1
      rw [← hs.next] at h2
      rw [res_ok_bind h2]
      refine ⟨_, rfl, ?_⟩
      constructor <;> first | rfl | same_rest hs
    · rename_i hc
      rw [if_neg hc]
      obtain ⟨ws, h1, h⟩ := res_bind_ok h
      obtain rfl := Except.ok.inj h
      have h2 := drone_moved hs _ ws h1
      rw [← hs.next] at h2
      rw [res_ok_bind h2]
      refine ⟨_, rfl, ?_⟩
      constructor <;> first | rfl | same_rest hs
  | planned =>
    intro h
    obtain rfl := Except.ok.inj h
    refine ⟨_, rfl, ?_⟩
    constructor <;> first | rfl | same_rest hs
  | launching =>
    intro h
    obtain rfl := Except.ok.inj h
    refine ⟨_, rfl, ?_⟩
    constructor <;> first | rfl | exact .launched | same_rest hs
  | launched =>
    intro h
    obtain rfl := Except.ok.inj h
    refine ⟨_, rfl, ?_⟩
    constructor <;> first | rfl | same_rest hs
  | apply =>
    simp only
    rw [hs.toModify]
    intro h
    obtain ⟨a, h1, h⟩ := res_bind_ok h
    obtain rfl := Except.ok.inj h
    obtain ⟨a', h2, h3⟩ := applyAll_moved s.toModify hs (hg.imp_right fun h => h hp) h1
    rw [res_ok_bind h2]
    refine ⟨_, rfl, ?_⟩
    constructor <;> first | rfl | same_rest h3

/-! ## The background computation -/

theorem extract_moved (ws : List (Waypoint K)) : extractVertices (ws.map F.waypoint) = (extractVertices ws).map (List.map F.vertex) := by
  have add : ∀ (v : Vertex K) (k : ℕ), k ≠ 0 → (F.vertex v).addConstraint k (V3.zero : V3 K).toList = (v.addConstraint k (V3.zero : V3 K).toList).map F.vertex := by
    intro v k hk
    cases e : v.addConstraint k (V3.zero : V3 K).toList with
    | ok v' =>
      have := vertex_add F e
      rw [value_zero F k hk] at this
      rw [this]; rfl
    | error f =>
      unfold Vertex.addConstraint at e ⊢
      split at e
      · cases e
      · rename_i hl
        obtain rfl := Except.error.inj e
        exact if_neg hl
  unfold extractVertices
  rw [List.getLast?_map]
  cases ws.getLast? with
  | none => rfl
  | some w =>
    simp only [Option.map_some]
    have a1 := add w.vertex 1 (by omega)
    rw [show (F.waypoint w).vertex = F.vertex w.vertex from rfl, show ((1 : ℕ) : Int) = 1 from rfl] at *
    rw [a1]
    cases w.vertex.addConstraint 1 (V3.zero : V3 K).toList with
    | error f => rfl
    | ok v1 =>
      have a2 := add v1 2 (by omega)
      rw [show ((2 : ℕ) : Int) = 2 from rfl] at a2
      simp only [Except.map, bind, Except.bind]
      rw [a2]
      cases v1.addConstraint 2 (V3.zero : V3 K).toList with
      | error f => rfl
      | ok v2 =>
        simp only [Except.map, pure, Except.pure, List.map_append, List.map_cons, List.map_nil, List.map_dropLast, List.map_map]
        rfl

theorem cumulativeLoop_moved {a a' : List (Segment K)} (h : a'.map (·.time) = a.map (·.time)) (i : ℕ) (acc : K) : cumulativeLoop a' i acc = cumulativeLoop a i acc := by
  induction i generalizing acc with
  | zero => rfl
  | succ i ih =>
    rw [cumulativeLoop, cumulativeLoop]
    have h1 : (a'.map (·.time))[i]? = (a.map (·.time))[i]? := by rw [h]
    rw [List.getElem?_map, List.getElem?_map] at h1
    unfold at?
    cases e : a[i]? with
    | none => rw [e] at h1; rw [Option.map_eq_none_iff.mp h1]; rfl
    | some x =>
      rw [e] at h1
      obtain ⟨y, h2, h3⟩ := Option.map_eq_some_iff.mp h1
      rw [h2]
      simp only [bind, Except.bind]
      rw [h3, ih]

theorem assignTimes_moved {a a' : List (Segment K)} (h : a'.map (·.time) = a.map (·.time)) (g : K) (ws : List (Waypoint K)) (i : ℕ) :
    assignTimes a' g (ws.map F.waypoint) i = (assignTimes a g ws i).map (List.map F.waypoint) := by
  induction ws generalizing i with
  | nil => rfl
  | cons w ws ih =>
    have hc : getCummulativeTime a' i = getCummulativeTime a i := by
      unfold getCummulativeTime
      rw [show a'.length = a.length by simpa using congrArg List.length h, cumulativeLoop_moved h]
    rw [List.map_cons, assignTimes, assignTimes, hc, ih]
    cases getCummulativeTime a i with
    | error f => rfl
    | ok t =>
      simp only [bind, Except.bind]
      cases assignTimes a g ws (i + 1) with
      | error f => rfl
      | ok r =>
        simp only [Except.map, pure, Except.pure, List.map_cons, setTime_moved]

theorem compute_moved (hs : F.Same s s') (ho : F.SameOptimizer env env') (hw : WpInv s) (h2 : 2 ≤ s.next.length) (v : K) :
    (∀ tr ws, s.computeTrajectory env v = .ok (tr, ws) → ∃ tr', s'.computeTrajectory env' v = .ok (tr', ws.map F.waypoint) ∧ F.SameFlight tr tr') ∧
    (s.computeTrajectory env v = .error .exc → s'.computeTrajectory env' v = .error .exc) := by
  unfold Planner.computeTrajectory
  rw [hs.next, extract_moved]
  cases e : extractVertices s.next with
  | error f =>
    refine ⟨fun tr ws h => ?_, fun h => ?_⟩
    · cases h
    · exact h
  | ok vs =>
    simp only [Except.map, bind, Except.bind, List.length_map]
    have hl : vs.length = s.next.length := (extractVertices_form _ _ e).1
    have hl : ¬ vs.length < 2 := by omega
    rw [if_neg hl, if_neg hl]
    have hv : ∀ v ∈ vs, WellFormed v ∧ v.D = 3 ∧ ∃ p, v.getConstraint 0 = some p := by
      intro v hm
      obtain ⟨h1, h2⟩ := extractVertices_wellFormed s.next vs e hw.next v hm
      refine ⟨h1, h2, ?_⟩
      obtain ⟨i, hi⟩ := List.mem_iff_getElem?.mp hm
      have hl := (extractVertices_form _ _ e).1
      have hlt : i < s.next.length := by rw [← hl]; exact (List.getElem?_eq_some_iff.mp hi).1
      obtain ⟨v', e1, e2, _⟩ := extractVertices_position s.next vs e hw.next i _ (List.getElem?_eq_getElem hlt)
      rw [hi] at e1
      obtain rfl := Option.some.inj e1
      rw [e2 0 (.inr ⟨by omega, by omega⟩)]
      exact ⟨_, (hw.next _ (List.getElem_mem hlt)).2.2.1⟩
    obtain ⟨o1, o2⟩ := ho.2 vs v (by omega) hv
    cases eo : env.optimize vs v with
    | error f =>
      refine ⟨fun tr ws h => (nomatch h), fun h => ?_⟩
      obtain rfl := Except.error.inj h
      rw [o2 eo]
    | ok tr =>
      obtain ⟨tr', h3, h4⟩ := o1 tr eo
      rw [h3]
      simp only
      rw [assignTimes_moved h4.1, hs.newParams]
      cases assignTimes tr.segments s.newParams.gtlg s.next 0 with
      | error f => exact ⟨fun tr ws h => (nomatch h), fun h => h⟩
      | ok ws =>
        refine ⟨fun tr1 ws1 h => ?_, fun h => by cases h⟩
        cases h
        exact ⟨tr', rfl, h4⟩

theorem finish_moved (hs : F.Same s s') (ho : F.SameOptimizer env env') (hc : Ctl s) (hw : WpInv s) (dt : K) (r : Option (Planner K)) (h : s.asyncFinish env dt = .ok r) :
    ∃ r', s'.asyncFinish env' dt = .ok r' ∧ Option.Rel F.Same r r' := by
  unfold Planner.asyncFinish at h ⊢
  have hfut := hs.future
  revert h
  cases hf : s.future with
  | running v =>
    rw [hf] at hfut
    generalize s'.future = f' at hfut ⊢
    cases hfut
    simp only
    have hcomp : s.computing = true := by
      cases hcc : s.computing with
      | true => rfl
      | false => have := hc.idle hcc; rw [hf] at this; cases this
    obtain ⟨h1, h2⟩ := compute_moved hs ho hw (hc.next2 (.inr hcomp)) v
    cases e : s.computeTrajectory env v with
    | ok x =>
      intro h
      obtain rfl := Except.ok.inj h
      obtain ⟨tr', h3, h4⟩ := h1 x.1 x.2 e
      rw [h3]
      refine ⟨_, rfl, .some ?_⟩
      constructor <;> first | rfl | exact .ready h4 | same_rest hs
    | error f =>
      cases f with
      | exc =>
        intro h
        obtain rfl := Except.ok.inj h
        rw [h2 e]
        refine ⟨_, rfl, .some ?_⟩
        constructor <;> first | rfl | exact .failed | same_rest hs
      | _ => intro h; cases h
  | invalid =>
    rw [hf] at hfut
    generalize s'.future = f' at hfut ⊢
    cases hfut
    intro h; obtain rfl := Except.ok.inj h; exact ⟨_, rfl, .none⟩
  | launched =>
    rw [hf] at hfut
    generalize s'.future = f' at hfut ⊢
    cases hfut
    intro h; obtain rfl := Except.ok.inj h; exact ⟨_, rfl, .none⟩
  | ready tr =>
    rw [hf] at hfut
    generalize s'.future = f' at hfut ⊢
    cases hfut
    intro h; obtain rfl := Except.ok.inj h; exact ⟨_, rfl, .none⟩
  | failed =>
    rw [hf] at hfut
    generalize s'.future = f' at hfut ⊢
    cases hfut
    intro h; obtain rfl := Except.ok.inj h; exact ⟨_, rfl, .none⟩

theorem start_moved (hs : F.Same s s') : Option.Rel F.Same s.asyncStart s'.asyncStart := by
  unfold Planner.asyncStart
  have hfut := hs.future
  cases hf : s.future with
  | launched =>
    rw [hf] at hfut
    generalize s'.future = f' at hfut ⊢
    cases hfut
    simp only
    refine .some ?_
    rw [show s'.params.speed = s.params.speed by rw [hs.params]]
    constructor <;> first | rfl | exact .running _ | same_rest hs
  | _ =>
    rw [hf] at hfut
    generalize s'.future = f' at hfut ⊢
    cases hfut
    exact .none

/-! ## One event -/

theorem call_moved {α : Type*} {f : α → α} {x x' : Res (Option (α × Planner K))} {r : Option (Planner K)}
    (hx : ∀ a, x = .ok a → ∃ a', x' = .ok a' ∧ SameCall F f a a') (h : x.map (Option.map (·.2)) = .ok r) :
    ∃ r', x'.map (Option.map (·.2)) = .ok r' ∧ Option.Rel F.Same r r' := by
  cases x with
  | error e => cases h
  | ok a =>
    obtain rfl := Except.ok.inj h
    obtain ⟨a', rfl, h1⟩ := hx a rfl
    refine ⟨_, rfl, ?_⟩
    cases h1 with
    | none => exact .none
    | some h2 => exact .some h2.2

theorem step_moved (hF : F.Proper) (ho : F.SameOptimizer env env') (hs : F.Same s s') (hc : Ctl s) (hw : WpInv s) (e : Event K)
    (hg : F.axes = .xyz ∨ (e = .worker → s.pc = .apply → 0 < s.params.lastGlobal)) (r : Option (Planner K)) (h : s.step env e = .ok r) : ∃ r', s'.step env' (F.event e) = .ok r' ∧ Option.Rel F.Same r r' := by
  have he := ho.1
  cases e with
  | setWaypoints ws => obtain rfl := Except.ok.inj h; exact ⟨_, rfl, .some (setWaypoints_moved hs ws)⟩
  | appendWaypoint w => obtain rfl := Except.ok.inj h; exact ⟨_, rfl, .some (append_moved hs w)⟩
  | modifyWaypoint n p g => obtain rfl := Except.ok.inj h; exact ⟨_, rfl, .some (modify_moved hs n p g)⟩
  | modifyWaypoints ms => obtain rfl := Except.ok.inj h; exact ⟨_, rfl, .some (modifyWaypoints_moved hs ms)⟩
  | evaluate t o f => exact call_moved (fun a ha => evaluate_moved hF he hs t o f a ha) h
  | getMaxTime => exact call_moved (fun a ha => getMaxTime_moved hF he hs a ha) h
  | getMinTime => exact call_moved (fun a ha => getMinTime_moved hF he hs a ha) h
  | getDynamicWaypoints => exact call_moved (fun a ha => getDynamicWaypoints_moved hF he hs a ha) h
  | setSpeed v =>
    obtain rfl := Except.ok.inj h
    refine ⟨_, rfl, .some ?_⟩
    unfold Planner.setSpeed
    constructor <;> first | (simp only [hs.params]; done) | (simp only [hs.newParams]; done) | same_rest hs
  | getWasTrajectoryRegenerated =>
    obtain rfl := Except.ok.inj h
    refine ⟨_, rfl, .some ?_⟩
    unfold Planner.getWasTrajectoryRegenerated
    constructor <;> first | rfl | same_rest hs
  | updateVehiclePosition p =>
    obtain rfl := Except.ok.inj h
    refine ⟨_, rfl, .some ?_⟩
    unfold Planner.updateVehiclePosition
    constructor <;> first | rfl | same_rest hs
  | worker =>
    obtain ⟨a, h1, h⟩ := res_bind_ok h
    obtain rfl := Except.ok.inj h
    obtain ⟨a', h2, h3⟩ := worker_moved hF he hs (hg.imp_right fun h => h rfl) a h1
    refine ⟨some a', ?_, .some h3⟩
    change (s'.workerStep env' >>= fun s => pure (some s)) = _
    rw [res_ok_bind h2]
    rfl
  | asyncStart => obtain rfl := Except.ok.inj h; exact ⟨_, rfl, start_moved hs⟩
  | asyncFinish dt => exact finish_moved hs ho hc hw dt r h

/-! ## Trajectories segment by segment -/

/-- The second list of segments is the first one in the new frame. -/
def SameSegments (F : Frame K) (a a' : List (Segment K)) : Prop :=
  List.Forall₂ (fun s s' => s'.time = s.time ∧ ∀ (k : ℕ) (x : K), k ≤ 2 → segDeriv s' k x = F.value k (segDeriv s k x)) a a'

theorem findSegment_times (t : K) {a a' : List (Segment K)} (h : a'.map (·.time) = a.map (·.time)) (acc : K) (i : ℕ) :
    Trajectory.findSegment t a' acc i = Trajectory.findSegment t a acc i := by
  induction a generalizing a' acc i with
  | nil => rw [List.map_eq_nil_iff.mp h]
  | cons s a ih =>
    cases a' with
    | nil => cases h
    | cons s' a' =>
      rw [List.map_cons, List.map_cons, List.cons.injEq] at h
      rw [Trajectory.findSegment, Trajectory.findSegment, h.1, ih h.2]

theorem findSegment_after (t : K) (a : List (Segment K)) (acc : K) (i : ℕ) (h : t ≤ acc + duration a) : t ≤ (Trajectory.findSegment t a acc i).1 := by
  induction a generalizing acc i with
  | nil => simpa [Trajectory.findSegment] using h
  | cons s a ih =>
    rw [Trajectory.findSegment]
    split
    · rename_i hc; exact le_of_lt hc
    · refine ih _ _ ?_
      rw [duration_cons] at h
      rwa [add_assoc]

theorem sameFlight_of {tr tr' : Trajectory K} (hu : Usable tr) (hu' : Usable tr') (h : SameSegments F tr.segments tr'.segments) : F.SameFlight tr tr' := by
  have ht : tr'.segments.map (·.time) = tr.segments.map (·.time) := by
    unfold SameSegments at h
    generalize tr.segments = a at h
    generalize tr'.segments = a' at h
    induction h with
    | nil => rfl
    | cons h1 _ ih => rw [List.map_cons, List.map_cons, h1.1, ih]
  have hl : tr'.segments.length = tr.segments.length := by simpa using congrArg List.length ht
  refine ⟨ht, ?_, fun t hle k c hk he => ?_⟩
  · rw [hu.2.2.1.1, hu'.2.2.1.1]; unfold duration; rw [ht]
  · have hn : ¬ t > (Trajectory.findSegment t tr.segments 0 0).1 := by
      refine not_lt.mpr (findSegment_after t _ 0 0 ?_)
      rw [zero_add, ← hu.2.2.1.1]; exact hle
    unfold Trajectory.evaluate at he ⊢
    simp only [findSegment_times t ht, hl] at he ⊢
    rw [if_neg hn] at he ⊢
    generalize (if tr.segments.length ≤ (Trajectory.findSegment t tr.segments 0 0).2 then tr.segments.length - 1 else (Trajectory.findSegment t tr.segments 0 0).2) = i at he ⊢
    obtain ⟨s, h1, h2⟩ := res_bind_ok he
    have hs : tr.segments[i]? = some s := by
      unfold at? at h1
      split at h1
      · rename_i e; rw [e, Except.ok.inj h1]
      · cases h1
    have hi : i < tr.segments.length := (List.getElem?_eq_some_iff.mp hs).1
    have hi' : i < tr'.segments.length := by omega
    have hf := (List.forall₂_iff_get.mp h).2 i hi hi'
    have e1 : tr.segments.get ⟨i, hi⟩ = s := (List.getElem?_eq_some_iff.mp hs).2
    rw [e1] at hf
    have h3 : at? tr'.segments i = .ok (tr'.segments.get ⟨i, hi'⟩) := by unfold at?; rw [List.getElem?_eq_getElem hi']; rfl
    rw [res_ok_bind h3]
    have hr := hu.2.2.2.2 s (List.mem_of_getElem? hs)
    have hr' := hu'.2.2.2.2 _ (List.get_mem tr'.segments ⟨i, hi'⟩)
    rw [segment_evaluate_eq s _ _ hr.le] at h2
    obtain rfl := Except.ok.inj h2
    rw [segment_evaluate_eq _ _ _ hr'.le, hf.1, hf.2 k _ hk]

/-! ## The sample optimiser -/

theorem hermite_affine (a b a' b' : ℕ → K) (ε o : K) (ha : ∀ k ≤ 4, a' k = ε * a k + if k = 0 then o else 0) (hb : ∀ k ≤ 4, b' k = ε * b k + if k = 0 then o else 0)
    (k : ℕ) (hk : k ≤ 2) (x : K) : derivAt (hermite a' b') k x = ε * derivAt (hermite a b) k x + if k = 0 then o else 0 := by
  have h : hermite a' b' = hermite (fun k => ε * a k + if k = 0 then o else 0) (fun k => ε * b k + if k = 0 then o else 0) := by
    unfold hermite
    simp only [ha 0 (by omega), ha 1 (by omega), ha 2 (by omega), ha 3 (by omega), ha 4 (by omega), hb 0 (by omega), hb 1 (by omega), hb 2 (by omega), hb 3 (by omega),
      hb 4 (by omega)]
  rw [h, derivAt_eq_sum, derivAt_eq_sum]
  interval_cases k <;> simp [hermite, Finset.sum_range_succ, Poly.rowTerm, baseEntry_eq, Nat.descFactorial] <;> ring

theorem value_affine (F : Frame K) (k : ℕ) (p : V3 K) : F.value k p.toList =
    [F.sign.x * (F.axes.pick p).x + (if k = 0 then F.origin.x else 0), F.sign.y * (F.axes.pick p).y + (if k = 0 then F.origin.y else 0),
      F.sign.z * (F.axes.pick p).z + (if k = 0 then F.origin.z else 0)] := by
  rw [value_toList]
  unfold act Frame.pos Frame.dir
  by_cases h : k = 0
  · simp only [if_pos h]; rfl
  · simp only [if_neg h, add_zero]; rfl

/-- The derivatives prescribed by a vertex, by axis. -/
def axisValues (v : Vertex K) : V3 (ℕ → K) := ⟨prescribed v 0, prescribed v 1, prescribed v 2⟩

theorem prescribed_moved (F : Frame K) (v : Vertex K) (hw : WellFormed v) (hD : v.D = 3) (hp : ∃ p, v.getConstraint 0 = some p) (k : ℕ) :
    prescribed (F.vertex v) 0 k = F.sign.x * (F.axes.pick (axisValues v)).x k + (if k = 0 then F.origin.x else 0) ∧
    prescribed (F.vertex v) 1 k = F.sign.y * (F.axes.pick (axisValues v)).y k + (if k = 0 then F.origin.y else 0) ∧
    prescribed (F.vertex v) 2 k = F.sign.z * (F.axes.pick (axisValues v)).z k + (if k = 0 then F.origin.z else 0) := by
  have hcomm : ∀ p : V3 (ℕ → K), (F.axes.pick (⟨p.x k, p.y k, p.z k⟩ : V3 K)) = ⟨(F.axes.pick p).x k, (F.axes.pick p).y k, (F.axes.pick p).z k⟩ := by
    intro p; cases F.axes <;> rfl
  have hc := hcomm (axisValues v)
  have e1 : (F.axes.pick (axisValues v)).x k = (F.axes.pick (⟨prescribed v 0 k, prescribed v 1 k, prescribed v 2 k⟩ : V3 K)).x := (congrArg V3.x hc).symm
  have e2 : (F.axes.pick (axisValues v)).y k = (F.axes.pick (⟨prescribed v 0 k, prescribed v 1 k, prescribed v 2 k⟩ : V3 K)).y := (congrArg V3.y hc).symm
  have e3 : (F.axes.pick (axisValues v)).z k = (F.axes.pick (⟨prescribed v 0 k, prescribed v 1 k, prescribed v 2 k⟩ : V3 K)).z := (congrArg V3.z hc).symm
  rw [e1, e2, e3]
  unfold prescribed
  rw [vertex_get]
  cases e : v.getConstraint k with
  | none =>
    have hk : k ≠ 0 := by rintro rfl; obtain ⟨p, hp⟩ := hp; rw [show ((0 : ℕ) : Int) = 0 from rfl, hp] at e; cases e
    simp only [Option.map_none, Option.getD_none, List.getD_nil, if_neg hk, add_zero]
    cases F.axes <;> simp [Axes.pick]
  | some c =>
    have hl : c.length = 3 := (hw.2 _ (mem_of_find _ _ _ e)).trans hD
    match c, hl with
    | [x, y, z], _ =>
      simp only [Option.map_some, Option.getD_some]
      rw [show [x, y, z] = (⟨x, y, z⟩ : V3 K).toList from rfl, value_affine]
      exact ⟨rfl, rfl, rfl⟩

theorem hermite_same (F : Frame K) : F.SameOptimizer (hermiteEnv : Env K) hermiteEnv := by
  refine ⟨rfl, fun vs speed hl hv => ⟨fun tr h => ?_, fun h => ?_⟩⟩
  · have hok : ∃ tr', (hermiteEnv : Env K).optimize (vs.map F.vertex) speed = .ok tr' ∧ tr'.segments = hermiteSegments (vs.map F.vertex) := by
      refine ⟨⟨3, 10, ((vs.map F.vertex).length - 1 : ℕ), hermiteSegments (vs.map F.vertex)⟩, ?_, rfl⟩
      change hermiteOptimize _ speed = _
      unfold hermiteOptimize
      rw [if_pos]
      refine ⟨by simpa using hl, ?_⟩
      intro v hm c hc
      obtain ⟨w, h1, rfl⟩ := List.mem_map.mp hm
      obtain ⟨d, h2, rfl⟩ := List.mem_map.mp hc
      obtain ⟨h3, h4, _⟩ := hv w h1
      rw [value_length]
      exact (h3.2 d h2).trans h4
    obtain ⟨tr', h', hs'⟩ := hok
    refine ⟨tr', h', sameFlight_of (hermite_segmentwise vs speed tr h).1 (hermite_segmentwise _ speed tr' h').1 ?_⟩
    have hs : tr.segments = hermiteSegments vs := by
      change hermiteOptimize _ speed = _ at h
      unfold hermiteOptimize at h
      split at h
      · obtain rfl := Except.ok.inj h; rfl
      · cases h
    rw [hs, hs']
    clear hs hs' h h' tr tr' hl
    induction vs with
    | nil => exact .nil
    | cons v vs ih =>
      cases vs with
      | nil => exact .nil
      | cons w vs =>
        refine .cons ⟨rfl, fun k x hk => ?_⟩ (ih fun u hu => hv u (List.mem_cons_of_mem _ hu))
        obtain ⟨v1, v2, v3⟩ := hv v (by simp)
        obtain ⟨w1, w2, w3⟩ := hv w (by simp)
        have pv := prescribed_moved F v v1 v2 v3
        have pw := prescribed_moved F w w1 w2 w3
        change [derivAt _ k x, derivAt _ k x, derivAt _ k x] = F.value k (⟨derivAt _ k x, derivAt _ k x, derivAt _ k x⟩ : V3 K).toList
        rw [value_affine, hermite_affine _ _ _ _ _ _ (fun k _ => (pv k).1) (fun k _ => (pw k).1) k hk, hermite_affine _ _ _ _ _ _ (fun k _ => (pv k).2.1) (fun k _ => (pw k).2.1) k hk,
          hermite_affine _ _ _ _ _ _ (fun k _ => (pv k).2.2) (fun k _ => (pw k).2.2) k hk]
        cases F.axes <;> rfl
  · change hermiteOptimize _ speed = _ at h
    unfold hermiteOptimize at h
    split at h <;> cases h

end Moved
end Verif.Lemmas
