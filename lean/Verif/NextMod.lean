/-!
Model of `sr_modinfo_next_mod`, modinfo.c 530-586, and of the loops that call it
(modinfo.c 615, shm_sub.c 1303, 1467, 1574, 1774, 1957).

Top-level nodes of the data are given by their module, a module by a number; an opaque node of an unknown module has a number that
is not among the modules.
-/
namespace Verif.NextMod

/-- Outcome of one call. -/
inductive Res where
  | done
  | mod (m : Nat) (aux : Nat → Bool)
  | crash
deriving Inhabited

/-- Look at the next node, modinfo.c 546-581; `last` is the module skipped now. A `goto next_mod` skips at least the node
itself, so it goes on with the following nodes. -/
def scan (mods : List Nat) (aux : Nat → Bool) (last : Option Nat) : List Nat → Res
  | [] => .done
  | n :: ns =>
    if last = some n then scan mods aux last ns
    else
      match mods.findIdx? (fun m => m = n) with
      | none => .done
      | some i =>
        if aux i then scan mods aux (some n) ns
        else .mod n fun j => if j = i then true else aux j

/-- `sr_modinfo_next_mod`. The search for the last node runs over the end if there is none of the module. -/
def nextMod (mods : List Nat) (data : List Nat) (last : Option Nat) (aux : Nat → Bool) : Res :=
  match last with
  | none => scan mods (fun _ => false) none data
  | some l =>
    match data.dropWhile (fun n => n ≠ l) with
    | [] => .crash
    | ns => scan mods aux (some l) ns

/-- The loop of a caller: the modules it gets, `none` if it does not end in the steps or crashes. -/
def loop (mods data : List Nat) : Nat → Option Nat → (Nat → Bool) → Option (List Nat)
  | 0, _, _ => none
  | f + 1, last, aux =>
    match nextMod mods data last aux with
    | .done => some []
    | .crash => none
    | .mod m aux' => (loop mods data f (some m) aux').map (m :: ·)

end Verif.NextMod
