/-!
# The cache of running data when modules change

A connection opened with `SR_CONN_CACHE_RUNNING` keeps the running data of a module with the value its counter
of changes had. The counter is in the shared memory of modules, which is written again, with all counters zero, when
modules are changed. The cache is dropped only if the content ID differs when the connection is used the next time;
the content ID is a hash of the modules and so the same again after a module is installed and removed.

* `src/shm_mod.c` 211–212 (`sr_shmmod_fill` zeroes `run_cache_id`), 775–855 `sr_shmmod_store_modules`
* `src/sysrepo.c` 1525–1541 the content ID set by `sr_install_modules`, 1569 the memory written on an error
* `src/context_change.c` 42–132 `sr_lycc_lock`
* `src/common.c` 3069–3182 `sr_conn_run_cache_update`, 3189–3232 `sr_conn_run_cache_update_mod`,
  3307–3340 `sr_conn_ctx_switch`
* `src/modinfo.c` 3872–3889 the counter

Simplifications: one module, which stays installed, and its data as one number; connections each used by one thread;
each call is one step (C108 has the threads); a plugin without `data_version_cb`, as the JSON plugin; the counter
does not overflow (`Verif.RunCache.counter_unset` is about that).
-/

namespace Verif.CacheCtx

/-- `sr_conn_ctx_t`: content ID and the cached data with their counter. -/
structure Conn where
  content : Nat
  cache : Option (Nat × Nat)

/-- `sr_main_shm_t.content_id`, `sr_mod_t.run_cache_id`, the data of the datastore plugin, connections. -/
structure State where
  content : Nat
  id : Nat
  data : Nat
  conns : Nat → Conn

inductive Call where
  /-- `sr_apply_changes` on `running` -/
  | change (c v : Nat)
  /-- reading `running` -/
  | read (c : Nat)
  /-- modules are installed, removed, updated or a feature changed; the hash of the modules after that -/
  | modules (c k : Nat)
  /-- the same failing after the memory was written -/
  | failed (c : Nat)
  deriving DecidableEq

def setAt {α} (f : Nat → α) (k : Nat) (v : α) : Nat → α := fun x => if x = k then v else f x

/-- `sr_lycc_lock`, context_change.c 63–103, common.c 3323–3329: what a connection has for the current context. -/
def sync (st : State) (c : Nat) : Conn :=
  if st.content ≠ (st.conns c).content then ⟨st.content, none⟩ else st.conns c

/-- `sr_conn_run_cache_update`, common.c 3127–3175: the cached data if current, else loaded. -/
def update (st : State) (k : Conn) : Conn × Nat :=
  match k.cache with
  | some (i, d) => if i = st.id then (k, d) else ({ k with cache := some (st.id, st.data) }, st.data)
  | none => ({ k with cache := some (st.id, st.data) }, st.data)

/-- One call and the data it returns. -/
def step (st : State) : Call → State × Option Nat
  -- modinfo.c 2971, 3865–3882
  | .change c v =>
    let k := (update st (sync st c)).1
    ({ st with data := v, id := st.id + 1, conns := setAt st.conns c { k with cache := some (st.id + 1, v) } }, none)
  | .read c =>
    let r := update st (sync st c)
    ({ st with conns := setAt st.conns c r.1 }, some r.2)
  -- sysrepo.c 1525, 1540–1541
  | .modules c k => ({ st with content := k, id := 0, conns := setAt st.conns c ⟨k, none⟩ }, none)
  -- sysrepo.c 1525, 1569
  | .failed c => ({ st with id := 0, conns := setAt st.conns c (sync st c) }, none)

/-- Connections that have read nothing. -/
def init : State := ⟨0, 0, 0, fun _ => ⟨0, none⟩⟩

/-- All calls, the latest first. -/
def run : List Call → State
  | [] => init
  | c :: h => (step (run h) c).1

/-! ## Specification -/

/-- The data last stored. -/
def current : List Call → Nat
  | [] => 0
  | .change _ v :: _ => v
  | _ :: h => current h

/-- The data ever stored. -/
def stored : List Call → List Nat
  | [] => [0]
  | .change _ v :: h => v :: stored h
  | _ :: h => stored h

/-- The content IDs there have been. -/
def contents : List Call → List Nat
  | [] => [0]
  | .modules _ k :: h => k :: contents h
  | _ :: h => contents h

/-- No call failed and no set of modules was there again. -/
def fresh : List Call → Bool
  | [] => true
  | .modules _ k :: h => !(contents h).contains k && fresh h
  | .failed _ :: _ => false
  | _ :: h => fresh h

end Verif.CacheCtx
