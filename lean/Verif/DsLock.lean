/-!
Model of the datastore locks (sr_lock, sr_unlock, sr_get_lock): sysrepo.c 4802-5085 (`sr_change_dslock`, `_sr_un_lock`,
`sr_get_lock`), shm_mod.c 1297-1404 (`sr_shmmod_lock`), 1410-1600 (the loops over modules), 1598-1660
(`sr_shmmod_release_locks`), the calls of these in sysrepo.c (apply, copy config, session stop).

A key is one module in one conventional datastore. Every API call is a sequence of atomic steps, one per module, freely
interleaved with the steps of other sessions. A process may die between any two steps and also inside a change of one
lock (between the writes of `ds_lock_cid` and `ds_lock_sid`).
Simplifications: a session runs one call at a time (sessions are not thread-safe); plain read locks and waiting are left
out (they only delay); several upgradable holders are allowed (more than the code allows); the mutex `ds_lock` never
times out; the time is a counter; session IDs are never reused.
-/
namespace Verif.DsLock

/-- `ds_lock_cid`, `ds_lock_sid`, `ds_lock_ts` of `struct sr_mod_lock_s`, shm_types.h. -/
structure Lk where
  cid : Nat
  sid : Nat
  ts : Nat
deriving DecidableEq

/-- A cleared lock. -/
def Lk.free : Lk := ⟨0, 0, 0⟩

/-- The check of `sr_shmmod_lock`, shm_mod.c 1332-1346, for the upgradable and write modes: `none` is `ds_locked`. -/
def dsCheck (sid : Nat) (alive : Nat → Bool) (l : Lk) : Option Lk :=
  if l.sid ≠ 0 ∧ l.sid ≠ sid then
    if alive l.cid then none else some Lk.free
  else some l

/-- One module in `sr_change_dslock`, sysrepo.c 4823-4855: `none` is the error. -/
def changeOne (on : Bool) (cid sid now : Nat) (l : Lk) : Option Lk :=
  if on then
    if l.sid ≠ 0 then none else some ⟨cid, sid, now⟩
  else
    if l.sid = 0 then none else some Lk.free

/-- Reversal of one module in `sr_change_dslock`, sysrepo.c 4880-4886: the connection is not touched. -/
def revertOne (on : Bool) (sid now : Nat) (l : Lk) : Lk :=
  if on then ⟨l.cid, 0, 0⟩ else ⟨l.cid, sid, now⟩

/-- One module in `sr_shmmod_release_locks`, shm_mod.c 1625-1632. -/
def releaseOne (sid : Nat) (l : Lk) : Lk :=
  if l.sid = sid then ⟨l.cid, 0, 0⟩ else l

/-- API calls: `change` is sr_apply_changes (modules `ks` are locked with READ_UPGR, the changed `req` of them upgraded,
sysrepo.c 4262-4283, 4107), `direct` is sr_copy_config and sr_replace_config of conventional datastores (WRITE from the
start, sysrepo.c 4576), `stop` is sr_session_stop. -/
inductive Call where
  | lock (ks : List Nat)
  | unlock (ks : List Nat)
  | change (req ks : List Nat)
  | direct (ks : List Nat)
  | stop
deriving DecidableEq

/-- Modules whose data the call locks. -/
def Call.keys : Call → List Nat
  | .lock ks | .unlock ks | .change _ ks | .direct ks => ks
  | .stop => []

/-- Progress of a call. -/
inductive Pc where
  | idle
  | acq (c : Call) (todo held : List Nat)
  | upg (todo done held : List Nat)
  | wrt (todo held : List Nat)
  | cdl (on : Bool) (todo done held : List Nat)
  | rev (on : Bool) (todo held : List Nat)
  | rel (held : List Nat)
  | stp (todo : List Nat)
deriving DecidableEq

/-- Sessions and modules: `conn` is the connection (process) of a session, `mods` all the keys. -/
structure Env where
  conn : Nat → Nat
  mods : List Nat

/-- Shared memory, processes and calls. -/
structure St where
  lk : Nat → Lk
  rd : Nat → List Nat
  wr : Nat → Option Nat
  dead : Nat → Bool
  pc : Nat → Pc
  ended : Nat → Bool
  now : Nat

/-- Nothing locked. -/
def St.init : St :=
  ⟨fun _ => Lk.free, fun _ => [], fun _ => none, fun _ => false, fun _ => .idle, fun _ => false, 0⟩

/-- What the users of the API see. -/
inductive Ev where
  | locked (s : Nat) (ks : List Nat)
  | lockErr (s : Nat) (ks : List Nat)
  | unlockCall (s : Nat) (ks : List Nat)
  | unlocked (s : Nat) (ks : List Nat)
  | unlockErr (s : Nat) (ks : List Nat)
  | refused (s : Nat) (k : Nat)
  | wrote (s : Nat) (k : Nat)
  | stopCall (s : Nat)
  | stopped (s : Nat)
  | died (c : Nat)
deriving DecidableEq

/-- Steps. -/
inductive Lab where
  | call (s : Nat) (c : Call)
  | acq (s : Nat)
  | upg (s : Nat)
  | fail (s : Nat)
  | put (s : Nat)
  | cdl (s : Nat)
  | rev (s : Nat)
  | rel (s : Nat)
  | stp (s : Nat)
  | die (c : Nat)
  | half (s : Nat)
deriving DecidableEq

/-- Function update. -/
def upd {β : Type} (f : Nat → β) (k : Nat) (v : β) : Nat → β := fun x => if x = k then v else f x

/-- Events of a call that fails before the DS locks are changed. -/
def failEv (s : Nat) : Call → List Ev
  | .lock ks => [.lockErr s ks]
  | .unlock ks => [.unlockErr s ks]
  | _ => []

/-- `sr_conn_is_alive`, common.c 2867-2880, shm_main.c 179-262: connection 0 never has a lock file. -/
def alive (st : St) (c : Nat) : Bool := c ≠ 0 && !st.dead c

/-- Whether the data lock is free for the mode of the call, `sr_rwlock` (see `Verif.RWLock`). -/
def grant (st : St) (c : Call) (k : Nat) : Bool :=
  match c with
  | .change .. => st.wr k = none
  | _ => st.wr k = none && st.rd k = []

/-- Take the data lock. -/
def take (st : St) (s : Nat) (c : Call) (k : Nat) : St :=
  match c with
  | .change .. => { st with rd := upd st.rd k (s :: st.rd k) }
  | _ => { st with wr := upd st.wr k (some s) }

/-- What the call does when all its modules are locked. -/
def enter (c : Call) (held : List Nat) : Pc :=
  match c with
  | .lock _ => .cdl true held [] held
  | .unlock _ => .cdl false held [] held
  | .change req _ => .upg req [] held
  | .direct _ => .wrt held held
  | .stop => .rel held

/-- Data locks of a dead process are freed (the recovery of `Verif.RWLock`). -/
def kill (E : Env) (st : St) (c : Nat) : St :=
  { st with
    dead := upd st.dead c true
    rd := fun k => (st.rd k).filter fun t => E.conn t ≠ c
    wr := fun k => match st.wr k with
      | some t => if E.conn t = c then none else some t
      | none => none
    pc := fun t => if E.conn t = c then .idle else st.pc t }

/-- One step; `none` means it cannot happen now. -/
def step (E : Env) (st : St) : Lab → Option (St × List Ev)
  | .call s c =>
    if s = 0 ∨ st.pc s ≠ .idle ∨ st.ended s ∨ st.dead (E.conn s) ∨ E.conn s = 0 ∨ ¬ c.keys.Nodup ∨
        (∃ k ∈ c.keys, k ∉ E.mods) then none
    else match c with
      | .lock ks => some ({ st with pc := upd st.pc s (.acq c ks []) }, [])
      | .unlock ks => some ({ st with pc := upd st.pc s (.acq c ks []) }, [.unlockCall s ks])
      | .change req ks => if ∀ k ∈ req, k ∈ ks then some ({ st with pc := upd st.pc s (.acq c ks []) }, []) else none
      | .direct ks => some ({ st with pc := upd st.pc s (.acq c ks []) }, [])
      -- sysrepo.c 710-739
      | .stop => some ({ st with pc := upd st.pc s (.stp E.mods) }, [.stopCall s])
  | .acq s =>
    match st.pc s with
    | .acq c (k :: todo) held =>
      -- shm_mod.c 1316-1327
      if grant st c k then
        match dsCheck s (alive st) (st.lk k) with
        | some l =>
          some (take { st with lk := upd st.lk k l, pc := upd st.pc s (.acq c todo (held ++ [k])) } s c k, [])
        -- the data lock is released, shm_mod.c 1360-1390
        | none => some ({ st with pc := upd st.pc s (.rel held) }, [.refused s k] ++ failEv s c)
      else none
    | .acq c [] held => some ({ st with pc := upd st.pc s (enter c held) }, [])
    | _ => none
  | .upg s =>
    match st.pc s with
    | .upg (k :: todo) done held =>
      -- shm_mod.c 1500-1528
      if st.wr k = none ∧ ∀ t ∈ st.rd k, t = s then
        match dsCheck s (alive st) (st.lk k) with
        | some l =>
          some ({ st with lk := upd st.lk k l, rd := upd st.rd k [], wr := upd st.wr k (some s),
                          pc := upd st.pc s (.upg todo (k :: done) held) }, [])
        | none => some ({ st with pc := upd st.pc s (.rel held) }, [.refused s k])
      else none
    | .upg [] done held => some ({ st with pc := upd st.pc s (.wrt done held) }, [])
    | _ => none
  -- a timeout, an error of a subscriber or of the datastore plugin, candidate already modified (sysrepo.c 4832-4844)
  | .fail s =>
    match st.pc s with
    | .acq c _ held => some ({ st with pc := upd st.pc s (.rel held) }, failEv s c)
    | .upg _ _ held => some ({ st with pc := upd st.pc s (.rel held) }, [])
    | .wrt _ held => some ({ st with pc := upd st.pc s (.rel held) }, [])
    | .cdl true _ done held => some ({ st with pc := upd st.pc s (.rev true done held) }, [])
    | _ => none
  | .put s =>
    match st.pc s with
    | .wrt (k :: todo) held => some ({ st with pc := upd st.pc s (.wrt todo held) }, [.wrote s k])
    | .wrt [] held => some ({ st with pc := upd st.pc s (.rel held) }, [])
    | _ => none
  | .cdl s =>
    match st.pc s with
    | .cdl on (k :: todo) done held =>
      match changeOne on (E.conn s) s (st.now + 1) (st.lk k) with
      | some l => some ({ st with now := st.now + 1, lk := upd st.lk k l,
                                  pc := upd st.pc s (.cdl on todo (k :: done) held) }, [])
      | none => some ({ st with pc := upd st.pc s (.rev on done held) }, [])
    | .cdl on [] _ held =>
      some ({ st with pc := upd st.pc s (.rel held) }, [if on then .locked s held else .unlocked s held])
    | _ => none
  | .rev s =>
    match st.pc s with
    | .rev on (k :: todo) held =>
      some ({ st with now := st.now + 1, lk := upd st.lk k (revertOne on s (st.now + 1) (st.lk k)),
                      pc := upd st.pc s (.rev on todo held) }, [])
    | .rev on [] held =>
      some ({ st with pc := upd st.pc s (.rel held) }, [if on then .lockErr s held else .unlockErr s held])
    | _ => none
  | .rel s =>
    match st.pc s with
    -- shm_mod.c 1559-1596
    | .rel (k :: held) =>
      some ({ st with rd := upd st.rd k ((st.rd k).filter (· ≠ s)),
                      wr := upd st.wr k (if st.wr k = some s then none else st.wr k),
                      pc := upd st.pc s (.rel held) }, [])
    | .rel [] => some ({ st with pc := upd st.pc s .idle }, [])
    | _ => none
  | .stp s =>
    match st.pc s with
    | .stp (k :: todo) =>
      some ({ st with lk := upd st.lk k (releaseOne s (st.lk k)), pc := upd st.pc s (.stp todo) }, [])
    | .stp [] => some ({ st with pc := upd st.pc s .idle, ended := upd st.ended s true }, [.stopped s])
    | _ => none
  | .die c => if c = 0 then none else some (kill E st c, [.died c])
  -- the process dies between the writes of the connection and of the session of one lock
  | .half s =>
    match st.pc s with
    | .cdl on (k :: _) _ _ =>
      match changeOne on (E.conn s) s (st.now + 1) (st.lk k) with
      | some l => some (kill E { st with lk := upd st.lk k { st.lk k with cid := l.cid } } (E.conn s), [.died (E.conn s)])
      | none => none
    | .acq c (k :: _) _ =>
      if grant st c k then
        match dsCheck s (alive st) (st.lk k) with
        | some l => some (kill E { st with lk := upd st.lk k { st.lk k with cid := l.cid } } (E.conn s), [.died (E.conn s)])
        | none => none
      else none
    | _ => none

/-- Reachable states with the history of events, newest first. -/
inductive Reach (E : Env) : St → List Ev → Prop where
  | init : Reach E St.init []
  | step {st h l st' ev} : Reach E st h → step E st l = some (st', ev) → Reach E st' (ev.reverse ++ h)

/-- A sequence of steps. -/
def run (E : Env) : List Lab → St → List Ev → Option (St × List Ev)
  | [], st, h => some (st, h)
  | l :: ls, st, h =>
    match step E st l with
    | some (st', ev) => run E ls st' (ev.reverse ++ h)
    | none => none

theorem Reach.run {E : Env} (ls : List Lab) : ∀ {st h st' h'}, Reach E st h → run E ls st h = some (st', h') → Reach E st' h' := by
  induction ls with
  | nil => intro st h st' h' hr e; simp [DsLock.run] at e; obtain ⟨rfl, rfl⟩ := e; exact hr
  | cons l ls ih =>
    intro st h st' h' hr e
    simp only [DsLock.run] at e
    split at e
    · next hs => exact ih (hr.step hs) e
    · simp at e

/-- `sr_get_lock`, sysrepo.c 5029-5073: reads the locks one by one. Each read may see another state of the memory, `ls`
are the values read. The result is what is written into `is_locked` (`none`: left as it was), `id` and `timestamp`. -/
def getLock (ls : List Lk) : Option Bool × Nat × Nat :=
  let rec go : List Lk → Nat → Nat → Bool × Nat × Nat
    | [], sid, ts => (true, sid, ts)
    | l :: t, sid, ts =>
      if l.sid = 0 then (false, sid, ts)
      else if sid = 0 then go t l.sid l.ts
      else if sid ≠ l.sid then (false, sid, ts)
      else go t sid ts
  match go ls 0 0 with
  | (false, _, _) => (some false, 0, 0)
  | (true, sid, ts) => if ls = [] then (none, 0, 0) else (some true, sid, ts)

/-! ## Specification -/

/-- Who owns a lock, from the events only: `leaving` while an sr_unlock call that names it runs. -/
inductive Own where
  | no | yes | leaving
deriving DecidableEq

/-- Effect of one event on whether session `s` owns the lock of `k`. -/
def own1 (E : Env) (s k : Nat) (o : Own) : Ev → Own
  | .locked t ks => if t = s ∧ k ∈ ks then .yes else o
  | .unlockCall t ks => if t = s ∧ k ∈ ks ∧ o = .yes then .leaving else o
  | .unlocked t ks => if t = s ∧ k ∈ ks then .no else o
  | .unlockErr t ks => if t = s ∧ k ∈ ks ∧ o = .leaving then .yes else o
  | .stopCall t => if t = s then .no else o
  | .died c => if c = E.conn s then .no else o
  | _ => o

/-- Whether session `s` owns the lock of `k` after a history (newest first). -/
def own (E : Env) (s k : Nat) : List Ev → Own
  | [] => .no
  | e :: h => own1 E s k (own E s k h) e

/-- Sessions unlock only what they have locked: every sr_unlock names modules whose locks the session owns. -/
def WellUnlocked (E : Env) : List Ev → Prop
  | [] => True
  | e :: h => (match e with
      | .unlockCall s ks => ∀ k ∈ ks, own E s k h = .yes
      | _ => True) ∧ WellUnlocked E h

/-! ## Invariant -/

/-- Nothing pending: owned exactly if the lock has the session. -/
def Same (o : Own) (l : Lk) (s : Nat) : Prop := (o = .yes ∧ l.sid = s) ∨ (o = .no ∧ l.sid ≠ s)

/-- Relation of the ownership by events with the lock, by the progress of the call of the owner. -/
def G (p : Pc) (o : Own) (l : Lk) (s k : Nat) : Prop :=
  match p with
  | .cdl true _ done _ => if k ∈ done then o = .no ∧ l.sid = s else Same o l s
  | .rev true todo _ => if k ∈ todo then o = .no ∧ l.sid = s else Same o l s
  | .acq (.unlock _) todo held => if k ∈ held ++ todo then o = .leaving ∧ l.sid = s else Same o l s
  | .cdl false todo done _ =>
    if k ∈ done then o = .leaving ∧ l.sid ≠ s else if k ∈ todo then o = .leaving ∧ l.sid = s else Same o l s
  | .rev false _ _ => False
  | .stp todo => o = .no ∧ (k ∉ todo → l.sid ≠ s)
  | _ => Same o l s

/-- Locks held by a call. -/
def Held (E : Env) (st : St) (s : Nat) : Pc → Prop
  | .acq (.change _ _) _ held => ∀ k ∈ held, s ∈ st.rd k
  | .acq .stop _ _ => False
  | .acq c todo held =>
    (∀ k ∈ held, st.wr k = some s) ∧ c.keys = held ++ todo ∧ c.keys.Nodup ∧ ∀ k ∈ c.keys, k ∈ E.mods
  | .upg _ done _ => ∀ k ∈ done, st.wr k = some s
  | .wrt todo _ => ∀ k ∈ todo, st.wr k = some s
  | .cdl _ todo done held =>
    (∀ k ∈ held, st.wr k = some s) ∧ done.reverse ++ todo = held ∧ held.Nodup ∧ ∀ k ∈ held, k ∈ E.mods
  | .rev _ todo _ => (∀ k ∈ todo, st.wr k = some s) ∧ todo.Nodup
  | _ => True

/-- The invariant. -/
structure Inv (E : Env) (st : St) (h : List Ev) : Prop where
  held : ∀ s, Held E st s (st.pc s)
  excl : ∀ k t, st.wr k = some t → ∀ t' ∈ st.rd k, t' = t
  mine : ∀ k t, (t ∈ st.rd k ∨ st.wr k = some t) → (st.lk k).sid = 0 ∨ (st.lk k).sid = t
  conn : ∀ k, (st.lk k).sid ≠ 0 → E.conn (st.lk k).sid ≠ 0 ∧
    ((st.lk k).cid = E.conn (st.lk k).sid ∨ (st.lk k).cid = 0 ∧ st.dead (E.conn (st.lk k).sid) = true)
  known : ∀ k, (st.lk k).sid ≠ 0 → k ∈ E.mods
  ghost : ∀ s, s ≠ 0 → st.dead (E.conn s) = false → st.ended s = false → ∀ k, G (st.pc s) (own E s k h) (st.lk k) s k
  gone : ∀ s, st.dead (E.conn s) = true → st.pc s = .idle ∧ ∀ k, own E s k h = .no
  stopped : ∀ s, st.ended s = true → s ≠ 0 ∧ st.pc s = .idle ∧ ∀ k, own E s k h = .no ∧ (st.lk k).sid ≠ s
  busy : ∀ s, st.pc s ≠ .idle → s ≠ 0 ∧ E.conn s ≠ 0 ∧ st.ended s = false ∧ st.dead (E.conn s) = false

theorem WellUnlocked.tail {E : Env} {e : List Ev} {h : List Ev} (w : WellUnlocked E (e ++ h)) : WellUnlocked E h := by
  induction e with
  | nil => exact w
  | cons a e ih => exact ih w.2

theorem Inv.init (E : Env) : Inv E St.init [] := by
  constructor <;> intros <;> simp_all [St.init, Held, Lk.free, G, Same, own] <;> grind

theorem upd_same {β : Type} (f : Nat → β) (k : Nat) (v : β) : upd f k v k = v := by simp [upd]
theorem upd_other {β : Type} (f : Nat → β) (k x : Nat) (v : β) (h : x ≠ k) : upd f k v x = f x := by simp [upd, h]

theorem G_congr {p : Pc} {o : Own} {l l' : Lk} {s k : Nat} (h : l.sid = s ↔ l'.sid = s) : G p o l s k → G p o l' s k := by
  unfold G Same
  split <;> grind

/-- How one step of session `s` may change a lock. -/
def LkStep (E : Env) (st : St) (s : Nat) (k : Nat) (l' : Lk) : Prop :=
  ((l'.sid = (st.lk k).sid) ∧ l'.cid = (st.lk k).cid) ∨
  (l'.sid = 0 ∧ ((st.lk k).sid = 0 ∨ (st.lk k).sid = s ∨ st.dead (E.conn (st.lk k).sid) = true)) ∨
  (l'.sid = s ∧ l'.cid = E.conn s ∧ (st.lk k).sid = 0 ∧ k ∈ E.mods)

theorem Held.mono {E : Env} {st st' : St} {t : Nat} {p : Pc} (h : Held E st t p)
    (hr : ∀ k, t ∈ st.rd k → t ∈ st'.rd k) (hw : ∀ k, st.wr k = some t → st'.wr k = some t) : Held E st' t p := by
  unfold Held at *
  split <;> grind

theorem Inv.frame {E : Env} {st st' : St} {h h' : List Ev} {s : Nat} (i : Inv E st h)
    (s0 : s ≠ 0) (sc : E.conn s ≠ 0) (se : st.ended s = false) (sd : st.dead (E.conn s) = false)
    (hpc : ∀ t, t ≠ s → st'.pc t = st.pc t) (hd : st'.dead = st.dead) (he : st'.ended = st.ended)
    (hh : Held E st' s (st'.pc s))
    (hr : ∀ t, t ≠ s → ∀ k, t ∈ st.rd k → t ∈ st'.rd k) (hw : ∀ t, t ≠ s → ∀ k, st.wr k = some t → st'.wr k = some t)
    (hx : ∀ k t, st'.wr k = some t → ∀ t' ∈ st'.rd k, t' = t)
    (hm : ∀ k t, (t ∈ st'.rd k ∨ st'.wr k = some t) → (st'.lk k).sid = 0 ∨ (st'.lk k).sid = t)
    (hl : ∀ k, LkStep E st s k (st'.lk k))
    (ho : ∀ t, t ≠ s → ∀ k, own E t k h' = own E t k h)
    (hg : ∀ k, G (st'.pc s) (own E s k h') (st'.lk k) s k) : Inv E st' h' := by
  obtain ⟨a, b, c', d, f, g, g1, g2, g3⟩ := i
  constructor
  · intro t
    by_cases ht : t = s
    · subst ht; exact hh
    · rw [hpc t ht]; exact (a t).mono (hr t ht) (hw t ht)
  · exact hx
  · exact hm
  · intro k; have := hl k; have := d k; simp only [LkStep, hd] at *; grind
  · intro k; have := hl k; have := f k; simp only [LkStep] at *; grind
  · intro t h0 h1 h2 k
    by_cases ht : t = s
    · subst ht; exact hg k
    · rw [hpc t ht, ho t ht k]
      refine G_congr ?_ (g t h0 (by rw [← hd]; exact h1) (by rw [← he]; exact h2) k)
      have := hl k; simp only [LkStep, hd] at *; grind
  · intro t ht
    have ht' : t ≠ s := by rintro rfl; rw [hd] at ht; simp [sd] at ht
    rw [hpc t ht']
    rw [hd] at ht
    exact ⟨(g1 t ht).1, fun k => by rw [ho t ht' k]; exact (g1 t ht).2 k⟩
  · intro t ht
    rw [he] at ht
    have ht' : t ≠ s := by rintro rfl; simp [se] at ht
    rw [hpc t ht']
    refine ⟨(g2 t ht).1, (g2 t ht).2.1, fun k => ?_⟩
    rw [ho t ht' k]
    have h1 := (g2 t ht).2.2 k
    have h2 := (g2 t ht).1
    have h3 := hl k
    refine ⟨h1.1, ?_⟩
    simp only [LkStep] at *
    grind
  · intro t ht
    rw [hd, he]
    by_cases ht' : t = s
    · subst ht'; exact ⟨s0, sc, se, sd⟩
    · rw [hpc t ht'] at ht; exact g3 t ht

set_option linter.unusedSimpArgs false

theorem LkStep.refl {E : Env} {st : St} {s k : Nat} : LkStep E st s k (st.lk k) := Or.inl ⟨rfl, rfl⟩

theorem LkStep.upd {E : Env} {st : St} {s k : Nat} {l : Lk} (h : LkStep E st s k l) (x : Nat) :
    LkStep E st s x (upd st.lk k l x) := by
  unfold DsLock.upd; split
  · subst_vars; exact h
  · exact .refl

theorem Inv.call {E : Env} {st : St} {h : List Ev} {s : Nat} {c : Call} {st' : St} {ev : List Ev} (i : Inv E st h)
    (w : WellUnlocked E (ev.reverse ++ h)) (e : step E st (.call s c) = some (st', ev)) : Inv E st' (ev.reverse ++ h) := by
  simp only [step] at e
  split at e
  · simp at e
  · next hn =>
    simp only [not_or, Classical.not_not, not_exists, not_and, Bool.not_eq_true] at hn
    obtain ⟨n0, n1, n2, n3, n4, n5, n6⟩ := hn
    have g0 := i.ghost s n0 n3 n2
    simp only [n1, G] at g0
    cases c with
    | lock ks =>
      simp only [Option.some.injEq, Prod.mk.injEq] at e
      obtain ⟨rfl, rfl⟩ := e
      simp only [Call.keys] at *
      refine i.frame n0 n4 n2 n3 ?_ rfl rfl ?_ ?_ ?_ i.excl i.mine (fun _ => .refl) ?_ ?_
      all_goals simp [upd, Held, Call.keys, G]
      all_goals grind
    | unlock ks =>
      simp only [Option.some.injEq, Prod.mk.injEq] at e
      obtain ⟨rfl, rfl⟩ := e
      simp only [Call.keys] at *
      have w1 := w.1
      refine i.frame n0 n4 n2 n3 ?_ rfl rfl ?_ ?_ ?_ i.excl i.mine (fun _ => .refl) ?_ ?_
      all_goals simp [upd, Held, Call.keys, G, own, own1, Same] at *
      all_goals grind
    | change req ks =>
      simp only [] at e
      split at e
      · simp only [Option.some.injEq, Prod.mk.injEq] at e
        obtain ⟨rfl, rfl⟩ := e
        simp only [Call.keys] at *
        refine i.frame n0 n4 n2 n3 ?_ rfl rfl ?_ ?_ ?_ i.excl i.mine (fun _ => .refl) ?_ ?_
        all_goals simp [upd, Held, Call.keys, G]
        all_goals grind
      · simp at e
    | direct ks =>
      simp only [Option.some.injEq, Prod.mk.injEq] at e
      obtain ⟨rfl, rfl⟩ := e
      simp only [Call.keys] at *
      refine i.frame n0 n4 n2 n3 ?_ rfl rfl ?_ ?_ ?_ i.excl i.mine (fun _ => .refl) ?_ ?_
      all_goals simp [upd, Held, Call.keys, G]
      all_goals grind
    | stop =>
      simp only [Option.some.injEq, Prod.mk.injEq] at e
      obtain ⟨rfl, rfl⟩ := e
      have kn := i.known
      refine i.frame n0 n4 n2 n3 ?_ rfl rfl ?_ ?_ ?_ i.excl i.mine (fun _ => .refl) ?_ ?_
      all_goals simp [upd, Held, Call.keys, G, own, own1, Same] at *
      all_goals grind

/-- Result of the check. -/
theorem dsCheck_some {E : Env} {st : St} {h : List Ev} (i : Inv E st h) {s k : Nat} {l : Lk}
    (e : dsCheck s (alive st) (st.lk k) = some l) : LkStep E st s k l ∧ (l.sid = 0 ∨ l.sid = s) := by
  have := i.conn k
  unfold dsCheck at e
  split at e
  · split at e
    · simp at e
    · simp only [Option.some.injEq] at e
      subst e
      refine ⟨Or.inr (Or.inl ⟨rfl, ?_⟩), Or.inl rfl⟩
      simp [alive] at *
      grind
  · simp only [Option.some.injEq] at e
    subst e
    exact ⟨.refl, by grind⟩

/-- The check does not change who of the caller and the others has the lock. -/
theorem dsCheck_same {st : St} {s k : Nat} {l : Lk} (n0 : s ≠ 0)
    (e : dsCheck s (alive st) (st.lk k) = some l) : (st.lk k).sid = s ↔ l.sid = s := by
  unfold dsCheck at e
  split at e
  · split at e
    · simp at e
    · simp only [Option.some.injEq] at e
      subst e
      simp [Lk.free]; grind
  · simp only [Option.some.injEq] at e
    subst e
    exact Iff.rfl

theorem Inv.acq {E : Env} {st : St} {h : List Ev} {s : Nat} {st' : St} {ev : List Ev} (i : Inv E st h)
    (e : step E st (.acq s) = some (st', ev)) : Inv E st' (ev.reverse ++ h) := by
  simp only [step] at e
  split at e
  · next c k todo held hp =>
    obtain ⟨n0, n4, n2, n3⟩ := i.busy s (by simp [hp])
    have g0 := i.ghost s n0 n3 n2
    have hh := i.held s
    rw [hp] at g0 hh
    split at e
    · next hg =>
      split at e
      · next l hl =>
        obtain ⟨hl1, hl2⟩ := dsCheck_some i hl
        have hl3 := dsCheck_same n0 hl
        simp only [Option.some.injEq, Prod.mk.injEq] at e
        obtain ⟨rfl, rfl⟩ := e
        have mi := i.mine
        have ex := i.excl
        cases c with
        | stop => simp [Held] at hh
        | change req ks =>
          simp only [take, grant, Bool.and_eq_true, decide_eq_true_eq] at *
          refine i.frame n0 n4 n2 n3 ?_ rfl rfl ?_ ?_ ?_ ?_ ?_ (fun x => hl1.upd x) ?_ ?_
          all_goals simp only [upd, Held, G, List.reverse_nil, List.nil_append, Same, if_true] at *
          all_goals grind
        | lock ks | unlock ks | direct ks =>
          simp only [take, grant, Bool.and_eq_true, decide_eq_true_eq] at *
          refine i.frame n0 n4 n2 n3 ?_ rfl rfl ?_ ?_ ?_ ?_ ?_ (fun x => hl1.upd x) ?_ ?_
          all_goals simp only [upd, Held, G, List.reverse_nil, List.nil_append, Same, Call.keys, if_true] at *
          all_goals grind
      · next hl =>
        simp only [Option.some.injEq, Prod.mk.injEq] at e
        obtain ⟨rfl, rfl⟩ := e
        have mi := i.mine
        have ex := i.excl
        cases c with
        | stop => simp [Held] at hh
        | change req ks | lock ks | unlock ks | direct ks =>
          refine i.frame n0 n4 n2 n3 ?_ rfl rfl ?_ ?_ ?_ i.excl i.mine (fun x => .refl) ?_ ?_
          all_goals simp [upd, Held, G, Same, Call.keys, if_true, failEv, own, own1] at *
          all_goals grind
    · simp at e
  · next c held hp =>
    obtain ⟨n0, n4, n2, n3⟩ := i.busy s (by simp [hp])
    have g0 := i.ghost s n0 n3 n2
    have hh := i.held s
    rw [hp] at g0 hh
    simp only [Option.some.injEq, Prod.mk.injEq] at e
    obtain ⟨rfl, rfl⟩ := e
    cases c with
    | stop => simp [Held] at hh
    | change req ks | lock ks | unlock ks | direct ks =>
      refine i.frame n0 n4 n2 n3 ?_ rfl rfl ?_ ?_ ?_ i.excl i.mine (fun x => .refl) ?_ ?_
      all_goals simp [upd, Held, G, Same, Call.keys, if_true, failEv, own, own1, enter] at *
      all_goals grind
  · simp at e

theorem Inv.upg {E : Env} {st : St} {h : List Ev} {s : Nat} {st' : St} {ev : List Ev} (i : Inv E st h)
    (e : step E st (.upg s) = some (st', ev)) : Inv E st' (ev.reverse ++ h) := by
  simp only [step] at e
  split at e
  · next k todo done held hp =>
    obtain ⟨n0, n4, n2, n3⟩ := i.busy s (by simp [hp])
    have g0 := i.ghost s n0 n3 n2
    have hh := i.held s
    rw [hp] at g0 hh
    have mi := i.mine
    have ex := i.excl
    split at e
    · next hg =>
      split at e
      · next l hl =>
        obtain ⟨hl1, hl2⟩ := dsCheck_some i hl
        have hl3 := dsCheck_same n0 hl
        simp only [Option.some.injEq, Prod.mk.injEq] at e
        obtain ⟨rfl, rfl⟩ := e
        refine i.frame n0 n4 n2 n3 ?_ rfl rfl ?_ ?_ ?_ ?_ ?_ (fun x => hl1.upd x) ?_ ?_
        all_goals simp only [upd, Held, G, List.reverse_nil, List.nil_append, Same, if_true] at *
        all_goals grind
      · next hl =>
        simp only [Option.some.injEq, Prod.mk.injEq] at e
        obtain ⟨rfl, rfl⟩ := e
        refine i.frame n0 n4 n2 n3 ?_ rfl rfl ?_ ?_ ?_ i.excl i.mine (fun x => .refl) ?_ ?_
        all_goals simp [upd, Held, G, Same, Call.keys, if_true, failEv, own, own1] at *
        all_goals grind
    · simp at e
  · next done held hp =>
    obtain ⟨n0, n4, n2, n3⟩ := i.busy s (by simp [hp])
    have g0 := i.ghost s n0 n3 n2
    have hh := i.held s
    rw [hp] at g0 hh
    simp only [Option.some.injEq, Prod.mk.injEq] at e
    obtain ⟨rfl, rfl⟩ := e
    refine i.frame n0 n4 n2 n3 ?_ rfl rfl ?_ ?_ ?_ i.excl i.mine (fun x => .refl) ?_ ?_
    all_goals simp [upd, Held, G, Same, Call.keys, if_true, failEv, own, own1, enter] at *
    all_goals grind
  · simp at e

theorem Inv.fail {E : Env} {st : St} {h : List Ev} {s : Nat} {st' : St} {ev : List Ev} (i : Inv E st h)
    (e : step E st (.fail s) = some (st', ev)) : Inv E st' (ev.reverse ++ h) := by
  simp only [step] at e
  split at e
  case h_1 c todo held hp =>
    obtain ⟨n0, n4, n2, n3⟩ := i.busy s (by simp [hp])
    have g0 := i.ghost s n0 n3 n2
    have hh := i.held s
    rw [hp] at g0 hh
    simp only [Option.some.injEq, Prod.mk.injEq] at e
    obtain ⟨rfl, rfl⟩ := e
    cases c with
    | stop => simp [Held] at hh
    | change req ks | lock ks | unlock ks | direct ks =>
      refine i.frame n0 n4 n2 n3 ?_ rfl rfl ?_ ?_ ?_ i.excl i.mine (fun x => .refl) ?_ ?_
      all_goals simp [upd, Held, G, Same, Call.keys, if_true, failEv, own, own1] at *
      all_goals grind
  case h_5 => simp at e
  all_goals
    next hp =>
    obtain ⟨n0, n4, n2, n3⟩ := i.busy s (by simp [hp])
    have g0 := i.ghost s n0 n3 n2
    have hh := i.held s
    rw [hp] at g0 hh
    simp only [Option.some.injEq, Prod.mk.injEq] at e
    obtain ⟨rfl, rfl⟩ := e
    refine i.frame n0 n4 n2 n3 ?_ rfl rfl ?_ ?_ ?_ i.excl i.mine (fun x => .refl) ?_ ?_
    all_goals simp [upd, Held, G, Same, Call.keys, if_true, failEv, own, own1] at *
    all_goals grind

theorem Inv.put {E : Env} {st : St} {h : List Ev} {s : Nat} {st' : St} {ev : List Ev} (i : Inv E st h)
    (e : step E st (.put s) = some (st', ev)) : Inv E st' (ev.reverse ++ h) := by
  simp only [step] at e
  split at e
  case h_3 => simp at e
  all_goals
    next hp =>
    obtain ⟨n0, n4, n2, n3⟩ := i.busy s (by simp [hp])
    have g0 := i.ghost s n0 n3 n2
    have hh := i.held s
    rw [hp] at g0 hh
    simp only [Option.some.injEq, Prod.mk.injEq] at e
    obtain ⟨rfl, rfl⟩ := e
    refine i.frame n0 n4 n2 n3 ?_ rfl rfl ?_ ?_ ?_ i.excl i.mine (fun x => .refl) ?_ ?_
    all_goals simp [upd, Held, G, Same, Call.keys, if_true, failEv, own, own1] at *
    all_goals grind

theorem Inv.cdl {E : Env} {st : St} {h : List Ev} {s : Nat} {st' : St} {ev : List Ev} (i : Inv E st h)
    (e : step E st (.cdl s) = some (st', ev)) : Inv E st' (ev.reverse ++ h) := by
  simp only [step] at e
  split at e
  case h_3 => simp at e
  case h_1 on k todo done held hp =>
    obtain ⟨n0, n4, n2, n3⟩ := i.busy s (by simp [hp])
    have g0 := i.ghost s n0 n3 n2
    have hh := i.held s
    rw [hp] at g0 hh
    have mi := i.mine
    have ex := i.excl
    have kw : st.wr k = some s := hh.1 k (by rw [← hh.2.1]; simp)
    have km : k ∈ E.mods := hh.2.2.2 k (by rw [← hh.2.1]; simp)
    have kd : k ∉ done ∧ k ∉ todo := by
      have := hh.2.2.1; rw [← hh.2.1] at this; simp [List.nodup_append] at this; grind
    split at e
    · next l hl =>
      simp only [Option.some.injEq, Prod.mk.injEq] at e
      obtain ⟨rfl, rfl⟩ := e
      have mk := mi k s (Or.inr kw)
      cases on with
      | true =>
        simp only [changeOne, if_true] at hl
        split at hl
        · simp at hl
        · simp only [Option.some.injEq] at hl
          subst hl
          refine i.frame n0 n4 n2 n3 ?_ rfl rfl ?_ ?_ ?_ ex ?_
            (LkStep.upd (Or.inr (Or.inr ⟨rfl, rfl, by simp_all, km⟩))) ?_ ?_
          all_goals simp [upd, Held, G, Same, Call.keys, if_true, failEv, own, own1] at *
          all_goals grind
      | false =>
        simp only [changeOne, Bool.false_eq_true, if_false] at hl
        split at hl
        · simp at hl
        · simp only [Option.some.injEq] at hl
          subst hl
          refine i.frame n0 n4 n2 n3 ?_ rfl rfl ?_ ?_ ?_ ex ?_
            (LkStep.upd (Or.inr (Or.inl ⟨rfl, by grind⟩))) ?_ ?_
          all_goals simp [upd, Held, G, Same, Call.keys, if_true, failEv, own, own1, Lk.free] at *
          all_goals grind
    · next hl =>
      simp only [Option.some.injEq, Prod.mk.injEq] at e
      obtain ⟨rfl, rfl⟩ := e
      have mk := mi k s (Or.inr kw)
      cases on with
      | true =>
        refine i.frame n0 n4 n2 n3 ?_ rfl rfl ?_ ?_ ?_ ex i.mine (fun _ => .refl) ?_ ?_
        all_goals simp [upd, Held, G, Same, Call.keys, if_true, failEv, own, own1] at *
        all_goals grind
      | false =>
        have := g0 k
        simp only [G] at this
        simp [changeOne] at hl
        grind
  case h_2 on done held hp =>
    obtain ⟨n0, n4, n2, n3⟩ := i.busy s (by simp [hp])
    have g0 := i.ghost s n0 n3 n2
    have hh := i.held s
    rw [hp] at g0 hh
    simp only [Option.some.injEq, Prod.mk.injEq] at e
    obtain ⟨rfl, rfl⟩ := e
    cases on with
    | true | false =>
      refine i.frame n0 n4 n2 n3 ?_ rfl rfl ?_ ?_ ?_ i.excl i.mine (fun x => .refl) ?_ ?_
      all_goals simp [upd, Held, G, Same, Call.keys, if_true, failEv, own, own1] at *
      all_goals grind

theorem Inv.rev {E : Env} {st : St} {h : List Ev} {s : Nat} {st' : St} {ev : List Ev} (i : Inv E st h)
    (e : step E st (.rev s) = some (st', ev)) : Inv E st' (ev.reverse ++ h) := by
  simp only [step] at e
  split at e
  case h_3 => simp at e
  case h_1 on k todo held hp =>
    obtain ⟨n0, n4, n2, n3⟩ := i.busy s (by simp [hp])
    have g0 := i.ghost s n0 n3 n2
    have hh := i.held s
    rw [hp] at g0 hh
    have mi := i.mine
    cases on with
    | false => exact (g0 0).elim
    | true =>
      simp only [Option.some.injEq, Prod.mk.injEq] at e
      obtain ⟨rfl, rfl⟩ := e
      have gk := g0 k
      simp only [G, List.mem_cons, true_or, if_true] at gk
      refine i.frame n0 n4 n2 n3 ?_ rfl rfl ?_ ?_ ?_ i.excl ?_
        (LkStep.upd (Or.inr (Or.inl ⟨by simp [revertOne], by simp [gk.2]⟩))) ?_ ?_
      all_goals simp [upd, Held, G, Same, Call.keys, if_true, failEv, own, own1, revertOne] at *
      all_goals grind
  case h_2 on held hp =>
    obtain ⟨n0, n4, n2, n3⟩ := i.busy s (by simp [hp])
    have g0 := i.ghost s n0 n3 n2
    have hh := i.held s
    rw [hp] at g0 hh
    simp only [Option.some.injEq, Prod.mk.injEq] at e
    obtain ⟨rfl, rfl⟩ := e
    cases on with
    | false => exact (g0 0).elim
    | true =>
      refine i.frame n0 n4 n2 n3 ?_ rfl rfl ?_ ?_ ?_ i.excl i.mine (fun x => .refl) ?_ ?_
      all_goals simp [upd, Held, G, Same, Call.keys, if_true, failEv, own, own1] at *
      all_goals grind

theorem Inv.rel {E : Env} {st : St} {h : List Ev} {s : Nat} {st' : St} {ev : List Ev} (i : Inv E st h)
    (e : step E st (.rel s) = some (st', ev)) : Inv E st' (ev.reverse ++ h) := by
  simp only [step] at e
  split at e
  case h_3 => simp at e
  case h_1 k held hp =>
    obtain ⟨n0, n4, n2, n3⟩ := i.busy s (by simp [hp])
    have g0 := i.ghost s n0 n3 n2
    rw [hp] at g0
    have mi := i.mine
    have ex := i.excl
    simp only [Option.some.injEq, Prod.mk.injEq] at e
    obtain ⟨rfl, rfl⟩ := e
    refine i.frame n0 n4 n2 n3 ?_ rfl rfl ?_ ?_ ?_ ?_ ?_ (fun x => .refl) ?_ ?_
    all_goals simp [upd, Held, G, Same, Call.keys, if_true, failEv, own, own1] at *
    all_goals grind
  case h_2 hp =>
    obtain ⟨n0, n4, n2, n3⟩ := i.busy s (by simp [hp])
    have g0 := i.ghost s n0 n3 n2
    rw [hp] at g0
    simp only [Option.some.injEq, Prod.mk.injEq] at e
    obtain ⟨rfl, rfl⟩ := e
    refine i.frame n0 n4 n2 n3 ?_ rfl rfl ?_ ?_ ?_ i.excl i.mine (fun x => .refl) ?_ ?_
    all_goals simp [upd, Held, G, Same, Call.keys, if_true, failEv, own, own1] at *
    all_goals grind

theorem Inv.stp {E : Env} {st : St} {h : List Ev} {s : Nat} {st' : St} {ev : List Ev} (i : Inv E st h)
    (e : step E st (.stp s) = some (st', ev)) : Inv E st' (ev.reverse ++ h) := by
  simp only [step] at e
  split at e
  case h_3 => simp at e
  case h_1 k todo hp =>
    obtain ⟨n0, n4, n2, n3⟩ := i.busy s (by simp [hp])
    have g0 := i.ghost s n0 n3 n2
    rw [hp] at g0
    have mi := i.mine
    simp only [Option.some.injEq, Prod.mk.injEq] at e
    obtain ⟨rfl, rfl⟩ := e
    refine i.frame n0 n4 n2 n3 ?_ rfl rfl ?_ ?_ ?_ i.excl ?_ (LkStep.upd ?_) ?_ ?_
    all_goals simp [upd, Held, G, Same, Call.keys, if_true, failEv, own, own1, releaseOne, LkStep] at *
    all_goals grind
  case h_2 hp =>
    obtain ⟨n0, n4, n2, n3⟩ := i.busy s (by simp [hp])
    have g0 := i.ghost s n0 n3 n2
    rw [hp] at g0
    simp only [Option.some.injEq, Prod.mk.injEq] at e
    obtain ⟨rfl, rfl⟩ := e
    obtain ⟨a, b, c', d, f, g, g1, g2, g3⟩ := i
    constructor
    · intro t; have := a t; simp only [upd]; split
      · simp [Held]
      · exact this
    · exact b
    · exact c'
    · exact d
    · exact f
    · intro t h0 h1 h2 x
      simp only [upd] at h2 ⊢
      split at h2
      · simp at h2
      · next hn =>
        simp only [hn, if_false]
        exact g t h0 h1 h2 x
    all_goals simp [upd, own, own1, G] at *
    all_goals grind

/-- Death of a process keeps the invariant, with one lock half changed. -/
theorem Inv.kill {E : Env} {st : St} {h : List Ev} (i : Inv E st h) {c : Nat} (k : Nat) (cid : Nat)
    (hc : (st.lk k).cid = cid ∨ (st.lk k).sid = 0 ∨ cid = 0 ∧ (E.conn (st.lk k).sid = c ∨ st.dead (E.conn (st.lk k).sid) = true)) :
    Inv E (kill E { st with lk := upd st.lk k { st.lk k with cid := cid } } c) (.died c :: h) := by
  obtain ⟨a, b, c', d, f, g, g1, g2, g3⟩ := i
  have hs : ∀ x, (upd st.lk k { st.lk k with cid := cid } x).sid = (st.lk x).sid := by
    intro x; simp only [upd]; split <;> simp_all
  constructor
  · intro t
    simp only [DsLock.kill]
    split
    · simp [Held]
    · refine (a t).mono ?_ ?_
      · intro x; simp; grind
      · intro x; simp; grind
  · intro x t; simp only [DsLock.kill]; have := b x; grind
  · intro x t; simp only [DsLock.kill, hs]; have := c' x t; grind
  · intro x; have := d x; simp only [DsLock.kill, hs]; simp only [upd]; grind
  · intro x; simp only [DsLock.kill, hs]; exact f x
  · intro t h0 h1 h2 x
    simp only [DsLock.kill, upd] at h1 h2
    split at h1
    · simp at h1
    · next hn =>
      have := g t h0 h1 h2 x
      simp only [DsLock.kill, hn, if_false]
      simp only [own, own1, Ne.symm hn, if_false]
      refine G_congr ?_ this
      rw [hs]
  · intro t ht
    simp only [DsLock.kill, upd] at ht ⊢
    simp only [own, own1]
    have := g1 t
    grind
  · intro t ht
    have := g2 t ht
    simp only [DsLock.kill, hs, own, own1]
    grind
  · intro t
    have := g3 t
    simp only [DsLock.kill, upd]
    grind

theorem Inv.half {E : Env} {st : St} {h : List Ev} {s : Nat} {st' : St} {ev : List Ev} (i : Inv E st h)
    (e : step E st (.half s) = some (st', ev)) : Inv E st' (ev.reverse ++ h) := by
  simp only [step] at e
  split at e
  · next on k todo done held hp =>
    have hh := i.held s
    rw [hp] at hh
    have kw : st.wr k = some s := hh.1 k (by rw [← hh.2.1]; simp)
    have := i.mine k s (Or.inr kw)
    split at e
    · next l hl =>
      simp only [Option.some.injEq, Prod.mk.injEq] at e
      obtain ⟨rfl, rfl⟩ := e
      refine i.kill k _ ?_
      simp only [changeOne, Lk.free] at hl
      grind
    · simp at e
  · next c k todo held hp =>
    have hh := i.held s
    split at e
    · split at e
      · next l hl =>
        simp only [Option.some.injEq, Prod.mk.injEq] at e
        obtain ⟨rfl, rfl⟩ := e
        refine i.kill k _ ?_
        have := i.conn k
        unfold dsCheck at hl
        split at hl
        · split at hl
          · simp at hl
          · simp [alive, Lk.free] at *; grind
        · simp only [Option.some.injEq] at hl; subst hl; simp
      · simp at e
    · simp at e
  · simp at e

theorem Reach.inv {E : Env} {st : St} {h : List Ev} (r : Reach E st h) (w : WellUnlocked E h) : Inv E st h := by
  induction r with
  | init => exact Inv.init E
  | @step st h l st' ev r e ih =>
    have i := ih w.tail
    cases l with
    | call s c => exact i.call w e
    | acq s => exact i.acq e
    | upg s => exact i.upg e
    | fail s => exact i.fail e
    | put s => exact i.put e
    | cdl s => exact i.cdl e
    | rev s => exact i.rev e
    | rel s => exact i.rel e
    | stp s => exact i.stp e
    | half s => exact i.half e
    | die c =>
      simp only [DsLock.step] at e
      split at e
      · simp at e
      · simp only [Option.some.injEq, Prod.mk.injEq] at e
        obtain ⟨rfl, rfl⟩ := e
        have := i.kill (c := c) 0 (st.lk 0).cid (Or.inl rfl)
        have hu : upd st.lk 0 { st.lk 0 with cid := (st.lk 0).cid } = st.lk := by
          funext x; simp only [upd]; split <;> simp_all
        rw [hu] at this
        exact this

/-! ## Data locks belong to running calls -/

/-- Modules whose data locks a call may hold. -/
def heldKeys : Pc → List Nat
  | .acq _ _ held | .upg _ _ held | .wrt _ held | .cdl _ _ _ held | .rev _ _ held | .rel held => held
  | .idle | .stp _ => []

/-- Only running calls hold data locks; an upgrade is only of a locked module. -/
structure Own2 (st : St) : Prop where
  has : ∀ k t, (t ∈ st.rd k ∨ st.wr k = some t) → k ∈ heldKeys (st.pc t)
  req : ∀ t, match st.pc t with
    | .acq (.change req _) todo held => ∀ k ∈ req, k ∈ held ++ todo
    | .upg todo _ held => ∀ k ∈ todo, k ∈ held
    | _ => True

theorem Own2.step {E : Env} {st st' : St} {ev : List Ev} {l : Lab} (o : Own2 st)
    (e : step E st l = some (st', ev)) : Own2 st' := by
  obtain ⟨o1, o2⟩ := o
  have K : ∀ (lk : Nat → Lk) c, Own2 (kill E { st with lk := lk } c) := by
    intro lk c
    constructor
    · intro k t; have := o1 k t; simp only [kill]; grind
    · intro t; have := o2 t; simp only [kill]; split
      · split at * <;> grind
      · split at * <;> grind
      · trivial
  cases l with
  | die c => simp only [DsLock.step] at e; split at e <;> simp at e; obtain ⟨rfl, _⟩ := e; exact K st.lk c
  | half s =>
    simp only [DsLock.step] at e
    split at e
    · split at e <;> simp at e; obtain ⟨rfl, _⟩ := e; exact K _ _
    · split at e
      · split at e <;> simp at e; obtain ⟨rfl, _⟩ := e; exact K _ _
      · simp at e
    · simp at e
  | call s c =>
    simp only [DsLock.step] at e
    split at e
    · simp at e
    · next hn =>
      simp only [not_or, Classical.not_not] at hn
      have hp := hn.2.1
      have h1 : ∀ k, s ∉ st.rd k ∧ st.wr k ≠ some s := by
        intro k; have := o1 k s; simp [hp, heldKeys] at this; exact this
      cases c <;> simp only [] at e
      case change req ks =>
        split at e
        · next hr =>
          simp at e; obtain ⟨rfl, _⟩ := e
          constructor
          · intro k t; have := o1 k t; simp only [upd]; grind
          · intro t; have := o2 t; simp only [upd]; by_cases ht : t = s
            · simp [ht]; exact hr
            · simp [ht]; simpa using this
        · simp at e
      all_goals
        simp at e; obtain ⟨rfl, _⟩ := e
        constructor
        · intro k t; have := o1 k t; simp only [upd]; grind
        · intro t; have := o2 t; simp only [upd]; by_cases ht : t = s
          · simp [ht]
          · simp [ht]; simpa using this
  | acq s =>
    have os := o2 s
    simp only [DsLock.step] at e
    split at e
    · next c k todo held hp =>
      rw [hp] at os
      split at e
      · split at e
        · simp at e; obtain ⟨rfl, _⟩ := e
          constructor
          · intro x t; have := o1 x t; cases c <;> simp only [take, upd] <;> grind [heldKeys]
          · intro t; have := o2 t; by_cases ht : t = s
            · subst ht; cases c <;> simp [take, upd] at os ⊢; grind
            · cases c <;> simp [take, upd, ht] <;> simpa using this
        · simp at e; obtain ⟨rfl, _⟩ := e
          constructor
          · intro x t; have := o1 x t; simp only [upd]; grind [heldKeys]
          · intro t; have := o2 t; by_cases ht : t = s
            · simp [ht, upd]
            · simp [upd, ht]; simpa using this
      · simp at e
    · next c held hp =>
      rw [hp] at os
      simp at e; obtain ⟨rfl, _⟩ := e
      constructor
      · intro x t; have := o1 x t; cases c <;> simp only [upd, enter] <;> grind [heldKeys]
      · intro t; have := o2 t; by_cases ht : t = s
        · subst ht; cases c <;> simp [upd, enter] at os ⊢; grind
        · simp [upd, ht]; simpa using this
    · simp at e
  | upg s =>
    have os := o2 s
    simp only [DsLock.step] at e
    split at e
    · next k todo done held hp =>
      rw [hp] at os
      split at e
      · split at e
        · simp at e; obtain ⟨rfl, _⟩ := e
          constructor
          · intro x t; have := o1 x t; simp only [upd]; grind [heldKeys]
          · intro t; have := o2 t; by_cases ht : t = s
            · subst ht; simp [upd] at os ⊢; grind
            · simp [upd, ht]; simpa using this
        · simp at e; obtain ⟨rfl, _⟩ := e
          constructor
          · intro x t; have := o1 x t; simp only [upd]; grind [heldKeys]
          · intro t; have := o2 t; by_cases ht : t = s
            · simp [ht, upd]
            · simp [upd, ht]; simpa using this
      · simp at e
    · next done held hp =>
      simp at e; obtain ⟨rfl, _⟩ := e
      constructor
      · intro x t; have := o1 x t; simp only [upd]; grind [heldKeys]
      · intro t; have := o2 t; by_cases ht : t = s
        · simp [ht, upd]
        · simp [upd, ht]; simpa using this
    · simp at e
  | fail s | put s | cdl s | rev s | rel s | stp s =>
    simp only [DsLock.step] at e
    repeat' split at e
    all_goals first
      | (simp at e; done)
      | (simp at e; obtain ⟨rfl, _⟩ := e
         constructor
         · intro x t; have := o1 x t; simp only [upd]; grind [heldKeys]
         · intro t; have := o2 t; by_cases ht : t = s
           · simp [ht, upd]
           · simp [upd, ht]; simpa using this)

theorem Reach.own2 {E : Env} {st : St} {h : List Ev} (r : Reach E st h) : Own2 st := by
  induction r with
  | init => constructor <;> simp [St.init]
  | step _ e ih => exact ih.step e

end Verif.DsLock
