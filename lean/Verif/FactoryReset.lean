import Verif.Pipeline
/-!
Model of the internal handling of the RPC `factory-reset`: `sr_shmsub_rpc_internal_call_callback`, shm_sub.c 2353-2510.

Uses the model of applying changes (`Pipeline`): one pass over a datastore is `replaceConfig` of the modules in mod info.
-/
namespace Verif.Pipeline
variable {D : Type} [DecidableEq D]

/-- The modules in mod info after one pass: the ones reset, their inverse dependencies and what was added for validation
(sysrepo.c 4010-4025). Simplified: modules added for changes by update subscribers are left out. -/
def passMods (env : Env D) (s : Store D) (ds : Ds) (ms : List Nat) (src : Nat → D) : List Nat :=
  let mi := replaceData src (loaded env s ds ms true)
  if hasDiff env mi then
    match check env env.depsOk env.valOk mi with
    | some (mi1, _) => mi1.mods.map (·.id)
    | none => mi.mods.map (·.id)
  else mi.mods.map (·.id)

/-- The data used for replacing, shm_sub.c 2433-2440: the factory default data of the modules `ms` (taking a module out of data without
it gives nothing, modinfo.c 702). -/
def resetData (s : Store D) (empty : D) (ms : List Nat) (m : Nat) : D := if ms.contains m then s.read .factory m else empty

/-- The running pass, shm_sub.c 2442-2482: all the modules left in mod info are new, so all become required. -/
def resetRunning (env : Env D) (t : Store D) (ms : List Nat) (src : Nat → D) (log : List (Ev D)) : Out D :=
  let o := replaceConfig env t .running ms src
  if o.err then ⟨o.st, log ++ o.log, true⟩ else ⟨candidateReset env o.st ms, log ++ o.log, false⟩

/-- `sr_shmsub_rpc_internal_call_callback`, shm_sub.c 2353-2510, for modules `ms`; `rs`, `rr`: startup and running are reset; `env1`,
`env2` is what happens in the two passes. Loading the factory default data is assumed to succeed. -/
def factoryReset (env1 env2 : Env D) (s : Store D) (empty : D) (ms : List Nat) (rs rr : Bool) : Out D :=
  let src := resetData s empty ms
  if rs then
    let o := replaceConfig env1 s .startup ms src
    if o.err then o
    else if rr then resetRunning env2 o.st (passMods env1 s .startup ms src) src o.log
    else o
  else if rr then resetRunning env2 s ms src []
  else ⟨s, [], false⟩

end Verif.Pipeline
