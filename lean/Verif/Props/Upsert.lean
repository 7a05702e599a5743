import Verif.Controller.Upsert
import Verif.Props.Client
/-!
# C45 Create-or-update
-/
set_option autoImplicit false
set_option linter.unusedSectionVars false
namespace Dctl

/-- Resource versions are smaller than the next one. -/
def Srv.Ok (s : Srv) : Prop := ∀ x, s.cur = some x → x.rv < s.next

/-- What a well-behaved concurrent writer may do, through the API server: anything, but whatever it writes gets a new resource version. -/
def Writer (e : Srv → Srv) : Prop := ∀ s : Srv, s.Ok → (e s).Ok ∧ s.next ≤ (e s).next ∧ ∀ y, (e s).cur = some y → y.rv < s.next → s.cur = some y

theorem writer_id : Writer id := fun _ h => ⟨h, Nat.le_refl _, fun _ hy _ => hy⟩

/-- A writer that replaces the object. -/
def replaceBy (b : Obj) : Srv → Srv := fun s => { s with cur := some ⟨b, none, s.next⟩, next := s.next + 1 }

theorem writer_replaceBy (b : Obj) : Writer (replaceBy b) := by
  intro s _
  refine ⟨fun x hx => ?_, Nat.le_succ _, fun y hy hlt => ?_⟩
  · cases hx; exact Nat.lt_succ_self _
  · cases hy; exact absurd hlt (Nat.lt_irrefl _)

theorem Writer.same {e : Srv → Srv} (he : Writer e) {s : Srv} (hs : s.Ok) {x y : SObj} (hx : s.cur = some x) (hy : (e s).cur = some y) (hrv : y.rv = x.rv) : y = x := by
  have := (he s hs).2.2 y hy (by rw [hrv]; exact hs x hx)
  rw [hx] at this
  exact (Option.some.inj this).symm

/-- C45 in part: without a concurrent writer, an object that exists ends with the desired content, and the desired status if there is one. Missing: objects
that do not exist (`C45_create_status`), kinds without status subresource given a status (`C45_no_subresource`). -/
theorem C45_update_state_partial (cfg : KindCfg) (f : HObj → Option HObj) (o : HObj) (s : Srv) (x : SObj) (d : HObj) (hx : s.cur = some x)
    (hd : f x.held = some d) (hrv : d.rv = some x.rv) (hsub : cfg.sub = true ∨ d.status = none) :
    let r := createOrUpdate cfg f id id id id o s
    r.2 = .updated ∧ ∃ y, r.1.cur = some y ∧ y.body = d.body ∧ (d.status ≠ none → y.status = d.status) := by
  intro r
  have hr : r = createOrUpdate cfg f id id id id o s := rfl
  simp only [createOrUpdate, id, hx, upsertUpdate, hd] at hr
  have hu : s.req.update cfg d = .ok (s.req.put x d.body (if cfg.sub then x.status else d.status)) := by
    simp [Srv.update, Srv.req, hx, rvOk, hrv]
  rw [hu] at hr
  generalize hst : (if cfg.sub then x.status else d.status) = st0 at hr
  have hput : ∃ y, (s.req.put x d.body st0).1.cur = some y ∧ y.body = d.body ∧ (s.req.put x d.body st0).2 = y.held ∧ y.status = st0 := by
    simp only [Srv.put]
    split
    · next h => exact ⟨x, hx, h.1.symm, rfl, h.2.symm⟩
    · exact ⟨_, rfl, rfl, rfl, rfl⟩
  obtain ⟨y, h1, h2, h3, h4⟩ := hput
  cases hds : d.status with
  | none =>
    rw [hds] at hr
    dsimp only at hr
    rw [hr]
    exact ⟨rfl, y, h1, h2, fun h => absurd rfl h⟩
  | some sd =>
    have hs : cfg.sub = true := by
      rcases hsub with h | h
      · exact h
      · rw [hds] at h; cases h
    rw [hds] at hr
    dsimp only at hr
    have hu2 : (s.req.put x d.body st0).1.req.updateStatus cfg { (s.req.put x d.body st0).2 with status := some sd } =
        .ok ((s.req.put x d.body st0).1.req.put y y.body (some sd)) := by
      simp [Srv.updateStatus, Srv.req] at *
      simp [h1, hs, rvOk, h3, SObj.held]
    rw [hu2] at hr
    dsimp only at hr
    rw [hr]
    refine ⟨rfl, ?_⟩
    simp only [Srv.put]
    split
    · next h => exact ⟨y, h1, h2, fun _ => h.2.symm⟩
    · exact ⟨_, rfl, h2, fun _ => rfl⟩

-- an object with a status, changed in both parts
example : let x : SObj := ⟨[("a", .int 1)], some [], 3⟩
    let s : Srv := ⟨some x, 4, 0⟩
    let f : HObj → Option HObj := fun o => some { o with body := [("a", .int 2)], status := some [("b", .int 1)] }
    (f x.held).map (·.rv) = some (some x.rv) ∧ (createOrUpdate ⟨true, true⟩ f id id id id ⟨[], none, none⟩ s).1.cur = some ⟨[("a", .int 2)], some [("b", .int 1)], 5⟩ := by
  decide

/-- C45: without a concurrent writer, an object that does not exist is created with the desired content. -/
theorem C45_create_body (cfg : KindCfg) (f : HObj → Option HObj) (o : HObj) (s : Srv) (d : HObj) (hx : s.cur = none) (hd : f o = some d) :
    let r := createOrUpdate cfg f id id id id o s
    r.2 = .created ∧ r.1.cur = some ⟨d.body, if cfg.sub then none else d.status, s.next⟩ := by
  simp [createOrUpdate, hx, hd, Srv.create, Srv.req]

/-- C45, negation: an object created with a status does not get it if status is a subresource, and success is reported. -/
theorem C45_create_status (f : HObj → Option HObj) (o : HObj) (s : Srv) (d : HObj) (b : Bool) (hx : s.cur = none) (hd : f o = some d) :
    let r := createOrUpdate ⟨true, b⟩ f id id id id o s
    r.2 = .created ∧ ∃ y, r.1.cur = some y ∧ y.status = none := by
  have := C45_create_body ⟨true, b⟩ f o s d hx hd
  exact ⟨this.1, _, this.2, rfl⟩

/-- C45, negation: for a kind without status subresource an object with a status is written, but failure is reported. -/
theorem C45_no_subresource :
    let f : HObj → Option HObj := fun o => some { o with body := [("a", .int 2)], status := some [] }
    let r := createOrUpdate ⟨false, true⟩ f id id id id ⟨[], none, none⟩ ⟨some ⟨[], none, 0⟩, 1, 0⟩
    r.2 = .failed ∧ r.1.cur = some ⟨[("a", .int 2)], some [], 1⟩ := by decide

/-- C45 in part: an object that was read and then updated has not been changed by anyone in between: no modification is overwritten that was not seen.
The same holds between the update and the update of the status. Missing: objects that were not there when read (`C45_create_race`). -/
theorem C45_no_lost_partial (cfg : KindCfg) (f : HObj → Option HObj) (hf : ∀ o d, f o = some d → d.rv = o.rv) (e0 e1 e2 e3 : Srv → Srv) (h0 : Writer e0) (h2 : Writer e2)
    (o : HObj) (s : Srv) (hs : s.Ok) (x : SObj) (hx : (e0 s).cur = some x) (hr : (createOrUpdate cfg f e0 e1 e2 e3 o s).2 = .updated) :
    (e2 (e0 s)).cur = some x := by
  simp only [createOrUpdate, hx, upsertUpdate] at hr
  split at hr
  · cases hr
  · next d hd =>
    have hrv := hf _ _ hd
    split at hr
    · cases hr
    · next s' o' hu =>
      simp only [Srv.update] at hu
      split at hu
      · cases hu
      · next y hy =>
        split at hu
        · next hok =>
          have hy' : (e2 (e0 s)).cur = some y := hy
          simp only [rvOk, hrv, SObj.held, beq_iff_eq] at hok
          rw [hy', h2.same (h0 s hs).1 hx hy' hok.symm]
        · cases hu

/-- C45 in part, second half of the above: the status is written to the version just updated. -/
theorem C45_no_lost_status_partial (cfg : KindCfg) (e3 : Srv → Srv) (h3 : Writer e3) (s : Srv) (hs : s.Ok) (y : SObj) (hy : s.cur = some y) (st : Obj) (r : Srv × HObj)
    (hr : (e3 s).req.updateStatus cfg { y.held with status := some st } = .ok r) : (e3 s).cur = some y := by
  simp only [Srv.updateStatus] at hr
  split at hr
  · cases hr
  · next z hz =>
    split at hr
    · split at hr
      · next hok =>
        have hz' : (e3 s).cur = some z := hz
        simp only [rvOk, SObj.held, beq_iff_eq] at hok
        rw [hz', h3.same hs hy hz' hok.symm]
      · cases hr
    · cases hr

-- a writer that acts before the object is read, none afterwards
example : let f : HObj → Option HObj := fun o => some { o with body := [("a", .int 2)] }
    (createOrUpdate ⟨true, false⟩ f (replaceBy [("b", .int 1)]) id id id ⟨[], none, none⟩ ⟨none, 0, 0⟩).2 = .updated := by decide

/-- C45, negation: an object created by someone else after it was found missing is overwritten without having been read (for kinds the server updates without
resource version), and the mutation is applied twice. -/
theorem C45_create_race : ∃ (e1 : Srv → Srv) (f : HObj → Option HObj), Writer e1 ∧ (∀ o d, f o = some d → d.rv = o.rv) ∧
    let s : Srv := ⟨none, 0, 0⟩
    let r := createOrUpdate ⟨true, true⟩ f id e1 id id ⟨[], none, none⟩ s
    (e1 s).cur = some ⟨[("theirs", .int 1)], none, 0⟩ ∧ r.2 = .updated ∧ r.1.cur = some ⟨[("n", .int 1), ("n", .int 1)], none, 1⟩ := by
  refine ⟨replaceBy [("theirs", .int 1)], fun o => some { o with body := ("n", .int 1) :: o.body }, writer_replaceBy _, ?_, ?_⟩
  · rintro o d h; cases h; rfl
  · decide

/-- C45, negation: `Update` overwrites a modification made after the object was read: on the conflict it takes the new resource version only. -/
theorem C45_update_lost : ∃ env : Nat → Srv → Srv, (∀ n, Writer (env n)) ∧
    let s : Srv := ⟨some ⟨[("a", .int 1)], none, 0⟩, 1, 0⟩
    let r := updateRetry ⟨true, false⟩ env ⟨[("a", .int 2)], none, some 0⟩ 5 s
    (env 14 s).cur = some ⟨[("theirs", .int 1)], none, 1⟩ ∧ r.2 = true ∧ r.1.cur = some ⟨[("a", .int 2)], none, 2⟩ := by
  refine ⟨fun n => if n = 14 then replaceBy [("theirs", .int 1)] else id, fun n => ?_, ?_⟩
  · dsimp only
    split
    · exact writer_replaceBy _
    · exact writer_id
  · decide

/-- C45: if nothing changes, the stored object does not change: it keeps its resource version. -/
theorem C45_no_change (cfg : KindCfg) (f : HObj → Option HObj) (o : HObj) (s : Srv) (x : SObj) (hx : s.cur = some x) (hf : f x.held = some x.held)
    (hsub : cfg.sub = true ∨ x.status = none) :
    let r := createOrUpdate cfg f id id id id o s
    r.2 = .updated ∧ r.1.cur = s.cur ∧ r.1.next = s.next := by
  intro r
  have hr : r = createOrUpdate cfg f id id id id o s := rfl
  simp only [createOrUpdate, id, hx, upsertUpdate, hf] at hr
  have hu : s.req.update cfg x.held = .ok (s.req, x.held) := by
    simp [Srv.update, Srv.req, hx, rvOk, SObj.held, Srv.put]
  rw [hu] at hr
  dsimp only at hr
  cases hds : x.status with
  | none =>
    rw [show x.held.status = x.status from rfl, hds] at hr
    dsimp only at hr
    rw [hr]
    exact ⟨rfl, rfl, rfl⟩
  | some sd =>
    have hs : cfg.sub = true := by
      rcases hsub with h | h
      · exact h
      · rw [hds] at h; cases h
    rw [show x.held.status = x.status from rfl, hds] at hr
    have hu2 : s.req.req.updateStatus cfg { x.held with status := some sd } = .ok (s.req.req, x.held) := by
      simp [Srv.updateStatus, Srv.req, hx, hs, rvOk, SObj.held, Srv.put, hds]
    dsimp only at hr
    rw [hu2] at hr
    dsimp only at hr
    rw [hr]
    exact ⟨rfl, rfl, rfl⟩

/-- C45, negation: although nothing changes, a write request is sent (two for an object with a status). -/
theorem C45_always_writes :
    let s : Srv := ⟨some ⟨[], some [], 0⟩, 1, 0⟩
    (createOrUpdate ⟨true, true⟩ some id id id id ⟨[], none, none⟩ s).1.writes = 2 := by decide

/-- The requests of the concurrent writer are not counted. -/
def Uncounted (e : Srv → Srv) : Prop := ∀ s, (e s).writes = s.writes

theorem put_writes (s : Srv) (x : SObj) (b : Obj) (st : Option Obj) : (s.put x b st).1.writes = s.writes := by
  unfold Srv.put
  split <;> rfl

theorem update_writes {cfg : KindCfg} {s s' : Srv} {o o' : HObj} (h : s.update cfg o = .ok (s', o')) : s'.writes = s.writes := by
  unfold Srv.update at h
  split at h
  · cases h
  · split at h
    · simp only [Except.ok.injEq] at h; rw [show s' = _ from (congrArg Prod.fst h).symm]; exact put_writes ..
    · cases h

theorem updateStatus_writes {cfg : KindCfg} {s s' : Srv} {o o' : HObj} (h : s.updateStatus cfg o = .ok (s', o')) : s'.writes = s.writes := by
  unfold Srv.updateStatus at h
  split at h
  · cases h
  · split at h
    · split at h
      · simp only [Except.ok.injEq] at h; rw [show s' = _ from (congrArg Prod.fst h).symm]; exact put_writes ..
      · cases h
    · cases h

/-- C45: an attempt of an update makes one request, and a second one only for an object with a status. -/
theorem C45_attempt_requests (cfg : KindCfg) (e1 e2 : Srv → Srv) (h1 : Uncounted e1) (h2 : Uncounted e2) (o : HObj) (s : Srv) :
    (o.status = none → (updateAttempt cfg e1 e2 o s).1.writes = s.writes + 1) ∧ (updateAttempt cfg e1 e2 o s).1.writes ≤ s.writes + 2 := by
  unfold updateAttempt
  split
  · simp [Srv.req, h1 s]
  · next s' o' hu =>
    have hw := update_writes hu
    simp only [Srv.req, h1 s] at hw
    split
    · exact ⟨fun _ => hw, by simp only [hw]; omega⟩
    · next st hst =>
      refine ⟨fun h => (by rw [hst] at h; cases h), ?_⟩
      split
      · simp only [Srv.req, h2 s', hw]; omega
      · next hu2 =>
        have := updateStatus_writes hu2
        simp only [Srv.req, h2 s', hw] at this
        simp only [this]; omega

/-- C45: an update with `n` attempts makes at most `n` requests for an object without status, and at most `2 n` in any case. -/
theorem C45_retry_requests (cfg : KindCfg) (env : Nat → Srv → Srv) (he : ∀ i, Uncounted (env i)) (n : Nat) (o : HObj) (s : Srv) :
    (o.status = none → (updateRetry cfg env o n s).1.writes ≤ s.writes + n) ∧ (updateRetry cfg env o n s).1.writes ≤ s.writes + 2 * n := by
  induction n generalizing o s with
  | zero => simp [updateRetry]
  | succ n ih =>
    obtain ⟨a1, a2⟩ := C45_attempt_requests cfg (env (3 * n + 2)) (env (3 * n + 1)) (he _) (he _) o s
    unfold updateRetry
    split
    · next h => rw [h] at a1 a2; exact ⟨fun hs => by have := a1 hs; simp only at this ⊢; omega, by simp only at a2 ⊢; omega⟩
    · next h => rw [h] at a1 a2; exact ⟨fun hs => by have := a1 hs; simp only at this ⊢; omega, by simp only at a2 ⊢; omega⟩
    · next s' h =>
      rw [h] at a1 a2
      simp only at a1 a2
      have hw := he (3 * n) s'
      split
      · exact ⟨fun hs => by have := a1 hs; simp only [hw]; omega, by simp only [hw]; omega⟩
      · next x hx =>
        obtain ⟨b1, b2⟩ := ih { o with rv := some x.rv } (env (3 * n) s')
        rw [hw] at b1 b2
        exact ⟨fun hs => by have := a1 hs; have := b1 hs; omega, by omega⟩

-- a writer that is always faster
example : ∀ i, Uncounted ((fun (_ : Nat) (s : Srv) => { s with cur := some ⟨[], none, s.next⟩, next := s.next + 1 }) i) := fun _ _ => rfl
example : (updateRetry ⟨true, true⟩ (fun _ s => { s with cur := some ⟨[], none, s.next⟩, next := s.next + 1 }) ⟨[], none, some 0⟩ 5 ⟨some ⟨[], none, 0⟩, 1, 0⟩).1.writes = 5 := by
  decide

/-- What `put` leaves behind and returns. -/
theorem put_spec {s : Srv} {x : SObj} (hs : s.Ok) (hx : s.cur = some x) (b : Obj) (st : Option Obj) :
    (s.put x b st).1.Ok ∧ ∃ y, (s.put x b st).1.cur = some y ∧ y.body = b ∧ y.status = st ∧ (s.put x b st).2 = y.held := by
  unfold Srv.put
  split
  · next h => exact ⟨hs, x, hx, h.1.symm, h.2.symm, rfl⟩
  · refine ⟨fun z hz => ?_, ⟨b, st, s.next⟩, rfl, rfl, rfl, rfl⟩
    cases hz; exact Nat.lt_succ_self _

/-- An attempt of an update reported as a success has left the desired content, and the desired status if there is one. -/
theorem attempt_success (cfg : KindCfg) (e1 e2 : Srv → Srv) (h1 : Writer e1) (h2 : Writer e2) (o : HObj) (s s' : Srv) (hs : s.Ok) (o' : HObj)
    (h : updateAttempt cfg e1 e2 o s = (s', .ok o')) : ∃ y, s'.cur = some y ∧ y.body = o.body ∧ (o.status ≠ none → y.status = o.status) := by
  unfold updateAttempt at h
  split at h
  · cases h
  · next s1 o1 hu =>
    have hok1 : (e1 s).req.Ok := (h1 s hs).1
    unfold Srv.update at hu
    split at hu
    · cases hu
    · next x hx =>
      split at hu
      · simp only [Except.ok.injEq] at hu
        obtain ⟨hok2, y, hy, hyb, -, hyh⟩ := put_spec hok1 hx o.body (if cfg.sub then x.status else o.status)
        rw [hu] at hok2 hy hyh
        simp only at hok2 hy hyh
        split at h
        · next hn =>
          simp only [Prod.mk.injEq] at h
          rw [← h.1]
          exact ⟨y, hy, hyb, fun c => absurd hn c⟩
        · next st hst =>
          split at h
          · cases h
          · next s2 o2 hus =>
            simp only [Prod.mk.injEq] at h
            rw [← h.1]
            unfold Srv.updateStatus at hus
            split at hus
            · cases hus
            · next z hz =>
              split at hus
              · split at hus
                · next hrv =>
                  have hz' : (e2 s1).cur = some z := hz
                  rw [hyh] at hrv
                  simp only [rvOk, SObj.held, beq_iff_eq] at hrv
                  have hzy := h2.same hok2 hy hz' hrv.symm
                  simp only [Except.ok.injEq] at hus
                  obtain ⟨-, w, hw, hwb, hws, -⟩ := put_spec (h2 s1 hok2).1 hz' z.body (some st)
                  have hw' : ((e2 s1).req.put z z.body (some st)).1.cur = some w := by
                    have := put_spec (s := (e2 s1).req) (h2 s1 hok2).1 hz z.body (some st)
                    simp only [Srv.put] at hw ⊢
                    split at hw <;> simp_all [Srv.req]
                  rw [hus] at hw'
                  exact ⟨w, hw', by rw [hwb, hzy, hyb], fun _ => by rw [hws, hst]⟩
                · cases hus
              · cases hus
      · cases hu

theorem update_ok {cfg : KindCfg} {s : Srv} {o : HObj} {r : Srv × HObj} (hs : s.Ok) (h : s.update cfg o = .ok r) : r.1.Ok := by
  unfold Srv.update at h
  split at h
  · cases h
  · next x hx =>
    split at h
    · simp only [Except.ok.injEq] at h
      rw [← h]; exact (put_spec hs hx _ _).1
    · cases h

theorem updateStatus_ok {cfg : KindCfg} {s : Srv} {o : HObj} {r : Srv × HObj} (hs : s.Ok) (h : s.updateStatus cfg o = .ok r) : r.1.Ok := by
  unfold Srv.updateStatus at h
  split at h
  · cases h
  · next x hx =>
    split at h
    · split at h
      · simp only [Except.ok.injEq] at h
        rw [← h]; exact (put_spec hs hx _ _).1
      · cases h
    · cases h

theorem attempt_ok (cfg : KindCfg) (e1 e2 : Srv → Srv) (h1 : Writer e1) (h2 : Writer e2) (o : HObj) (s : Srv) (hs : s.Ok) : (updateAttempt cfg e1 e2 o s).1.Ok := by
  have hok1 : (e1 s).req.Ok := (h1 s hs).1
  unfold updateAttempt
  split
  · exact hok1
  · next s1 o1 hu =>
    have hok2 : s1.Ok := update_ok hok1 hu
    split
    · exact hok2
    · have hok3 : (e2 s1).req.Ok := (h2 s1 hok2).1
      split
      · exact hok3
      · next s2 o2 hus => exact updateStatus_ok hok3 hus

/-- C45: an update reported as a success, after however many attempts and against any concurrent writer, has left the desired content, and the desired status if
there is one. -/
theorem C45_retry_success (cfg : KindCfg) (env : Nat → Srv → Srv) (he : ∀ i, Writer (env i)) (n : Nat) (o : HObj) (s : Srv) (hs : s.Ok)
    (h : (updateRetry cfg env o n s).2 = true) :
    ∃ y, (updateRetry cfg env o n s).1.cur = some y ∧ y.body = o.body ∧ (o.status ≠ none → y.status = o.status) := by
  induction n generalizing o s with
  | zero => cases h
  | succ n ih =>
    have hok := attempt_ok cfg (env (3 * n + 2)) (env (3 * n + 1)) (he _) (he _) o s hs
    unfold updateRetry at h ⊢
    split at h
    · next s' o' ha => exact attempt_success cfg _ _ (he _) (he _) o s s' hs o' ha
    · cases h
    · next s' ha =>
      rw [ha] at hok
      split at h
      · cases h
      · next x hx =>
        exact ih { o with rv := some x.rv } _ ((he (3 * n) s' hok).1) h

-- the writer is faster twice, the third attempt succeeds
example : let e : Nat → Srv → Srv := fun i => if i = 14 ∨ i = 11 then replaceBy [("theirs", .int 1)] else id
    let s : Srv := ⟨some ⟨[], none, 0⟩, 1, 0⟩
    (∀ i, Writer (e i)) ∧ s.Ok ∧ (updateRetry ⟨true, true⟩ e ⟨[("a", .int 2)], some [("b", .int 3)], some 0⟩ 5 s).2 = true ∧
      (updateRetry ⟨true, true⟩ e ⟨[("a", .int 2)], some [("b", .int 3)], some 0⟩ 5 s).1.writes = 4 := by
  refine ⟨fun i => ?_, by intro x h; cases h; decide, by decide, by decide⟩
  dsimp only
  split
  · exact writer_replaceBy _
  · exact writer_id

/-- C45: for views an update that changes nothing writes nothing. -/
theorem C45_view_no_write (hash : String → String) {c : VCache} (o : Obj) (hown : OwnView o) (h : c.get (objGVK o) (objKey o) = some o) : c.clientUpdate hash o = some c := by
  rw [clientUpdate_eq, hown.kind.1, h, Option.bind_some, if_pos rfl]

/-- C45, negation: for views there are no resource versions: an update replaces whatever is stored, also a version the updater has not seen. -/
theorem C45_view_lost (hash : String → String) {c : VCache} (hc : c.Reachable hash) (o theirs : Obj) (ho : Obj.Ok o) (hown : OwnView o)
    (hg : c.get (objGVK o) (objKey o) = some theirs) (hne : theirs ≠ o) :
    ∃ c', c.clientUpdate hash o = some c' ∧ c'.get (objGVK o) (objKey o) = some (withUID hash (copyObj o)) := by
  obtain ⟨c', h, h'⟩ := C44_update_partial hash hc o theirs ho hown hg
  exact ⟨c', h, by rw [h', if_pos ⟨rfl, rfl⟩, if_neg hne]⟩

example : let o := demoView "a" "b" [("d", .int 1)]
    let c := VCache.init.run (fun s => s) [.add (demoView "a" "b" [("c", .int 1)])]
    c.get (objGVK o) (objKey o) = some (withUID (fun s => s) (demoView "a" "b" [("c", .int 1)])) ∧ withUID (fun s => s) (demoView "a" "b" [("c", .int 1)]) ≠ o := by
  decide +kernel

end Dctl
