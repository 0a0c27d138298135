import Verif.PipelinePath
/-!
Which modules are in mod info, with which flags.
-/
namespace Verif.Pipeline
variable {D : Type} [DecidableEq D]

/-- A flag of a module that stays while modules are added, locked and marked. -/
structure Stays (f : Mod → Bool) : Prop where
  new : ∀ x : Mod, f x = true → f { x with new := true } = true
  kind : ∀ (x : Mod) k, f x = true → f (x.setKind k) = true
  lock : ∀ (x : Mod) l, x.lock = .none → f x = true → f { x with lock := l } = true
  mark : ∀ x y : Mod, { x with changed := false } = { y with changed := false } → f x = f y

theorem stays_req : Stays (·.req) :=
  ⟨fun _ h => h, fun x k h => by cases k <;> first | rfl | exact h, fun _ _ _ h => h, fun x y h => by
    have := congrArg Mod.req h; exact this⟩

theorem stays_inv : Stays (·.inv) :=
  ⟨fun _ h => h, fun x k h => by cases k <;> first | rfl | exact h, fun _ _ _ h => h, fun x y h => by
    have := congrArg Mod.inv h; exact this⟩

theorem stays_upgr : Stays fun x => x.req && decide (x.lock = .upgr) := by
  refine ⟨fun _ h => h, fun x k h => ?_, fun x l hl h => ?_, fun x y h => ?_⟩
  · simp only [Bool.and_eq_true, decide_eq_true_eq] at h ⊢
    cases k <;> exact ⟨by first | rfl | exact h.1, h.2⟩
  · rw [hl] at h; simp at h
  · have h1 := congrArg Mod.req h
    have h2 := congrArg Mod.lock h
    simp only at h1 h2
    rw [h1, h2]

/-- Module `m` is there with the flag. -/
def Has (f : Mod → Bool) (m : Nat) (ms : List Mod) : Prop := ∃ x ∈ ms, x.id = m ∧ f x = true

theorem Has.map {f : Mod → Bool} {m : Nat} {ms : List Mod} (h : Has f m ms) (g : Mod → Mod) (hi : ∀ x, (g x).id = x.id)
    (hf : ∀ x, f x = true → f (g x) = true) : Has f m (ms.map g) := by
  obtain ⟨x, hx, h1, h2⟩ := h
  exact ⟨g x, List.mem_map.2 ⟨x, hx, rfl⟩, (hi x).trans h1, hf x h2⟩

theorem Has.append {f : Mod → Bool} {m : Nat} {ms l : List Mod} (h : Has f m ms) : Has f m (ms ++ l) := by
  obtain ⟨x, hx, h1⟩ := h
  exact ⟨x, List.mem_append_left _ hx, h1⟩

theorem Has.addMod {f : Mod → Bool} (hs : Stays f) {m k : Nat} {ms : List Mod} (h : Has f m ms) : Has f m (addMod k ms) := by
  unfold Pipeline.addMod
  split
  · exact h.map _ (fun x => by split <;> rfl) (fun x hx => by split; exact hs.new x hx; exact hx)
  · exact h.append

theorem Has.addInv {f : Mod → Bool} (hs : Stays f) {m k : Nat} {ms : List Mod} (h : Has f m ms) : Has f m (addInv k ms) := by
  unfold Pipeline.addInv
  split
  · exact h.map _ (fun x => by split <;> rfl) (fun x hx => by split; exact hs.kind x _ hx; exact hx)
  · exact h.append

theorem Has.foldl {f : Mod → Bool} {α : Type} {m : Nat} (g : List Mod → α → List Mod) (hg : ∀ ms x, Has f m ms → Has f m (g ms x))
    (l : List α) {ms : List Mod} (h : Has f m ms) : Has f m (l.foldl g ms) := by
  induction l generalizing ms with
  | nil => exact h
  | cons x xs ih => exact ih (hg ms x h)

theorem Has.lockMods {f : Mod → Bool} (hs : Stays f) {m : Nat} {ms : List Mod} (h : Has f m ms) (l : Lock) :
    Has f m (lockMods l ms) :=
  h.map _ (fun x => by split <;> rfl) (fun x hx => by
    split
    · rename_i hl; exact hs.lock x l hl hx
    · exact hx)

theorem Has.markNew {f : Mod → Bool} (hs : Stays f) {m : Nat} {ms : List Mod} (h : Has f m ms) (k : Kind) : Has f m (markNew k ms) :=
  h.map _ (fun x => by split <;> (cases k <;> rfl)) (fun x hx => by split; exact hs.kind x _ hx; exact hx)

theorem Has.consolidate {f : Mod → Bool} (hs : Stays f) {m : Nat} {ms : List Mod} (h : Has f m ms) (env : Env D) (k : Kind) (inv : Bool)
    (l : Lock) : Has f m (consolidate env k inv l ms) := by
  unfold Pipeline.consolidate
  split
  · cases inv with
    | false => exact (h.markNew hs k).lockMods hs l
    | true =>
      exact (Has.foldl _ (fun a x ha => Has.foldl _ (fun b j hb => hb.addInv hs) _ ha) _ (h.markNew hs k)).lockMods hs l
  · exact h

theorem Has.unmark {f : Mod → Bool} (hs : Stays f) {m : Nat} {a b : List Mod} (h : Has f m a) (e : unmark b = unmark a) : Has f m b := by
  obtain ⟨x, hx, h1, h2⟩ := h
  have : ({ x with changed := false } : Mod) ∈ Pipeline.unmark a := List.mem_map.2 ⟨x, hx, rfl⟩
  rw [← e] at this
  obtain ⟨y, hy, hxy⟩ := List.mem_map.1 this
  refine ⟨y, hy, ?_, ?_⟩
  · have := congrArg Mod.id hxy
    exact this.trans h1
  · rw [hs.mark y x hxy]; exact h2

theorem Has.check {f : Mod → Bool} (hs : Stays f) {m : Nat} {env : Env D} {a b : Bool} {mi mi' : MI D} {n : Nat}
    (h : Has f m mi.mods) (hc : check env a b mi = some (mi', n)) : Has f m mi'.mods := by
  have hval : ∀ mi' n, validate env (withDeps env mi) = (mi', n) → Has f m mi'.mods := by
    intro mi' n he
    simp only [validate] at he
    cases he
    have h1 : Has f m (withDeps env mi).mods :=
      (Has.foldl _ (fun a x ha => ha.addMod hs) _ h).consolidate hs env _ _ _
    exact h1.unmark hs (valLoop_loop env mi.base _ _).same
  unfold Pipeline.check at hc
  cases hd : mi.ds with
  | startup =>
    rw [hd] at hc; simp only at hc
    split at hc
    · exact hval _ _ (Option.some.inj hc)
    · cases hc
  | running =>
    rw [hd] at hc; simp only at hc
    split at hc
    · exact hval _ _ (Option.some.inj hc)
    · cases hc
  | candidate =>
    rw [hd] at hc; simp only at hc
    split at hc
    · cases hc; exact h.unmark hs (defLoop_loop env mi.base _ _).same
    · cases hc
  | operational => rw [hd] at hc; cases hc; exact h
  | factory => rw [hd] at hc; cases hc

/-- The modules added first. -/
structure Fresh (x : Mod) : Prop where
  new : x.new = true
  req : x.req = false
  lock : x.lock = .none

theorem addMod_fresh (m : Nat) (ms : List Mod) (h : ∀ x ∈ ms, Fresh x) : ∀ x ∈ addMod m ms, Fresh x := by
  unfold addMod
  split
  · intro x hx
    obtain ⟨y, hy, rfl⟩ := List.mem_map.1 hx
    split
    · exact ⟨rfl, (h y hy).req, (h y hy).lock⟩
    · exact h y hy
  · intro x hx
    rcases List.mem_append.1 hx with hx | hx
    · exact h x hx
    · have : x = { id := m, new := true } := by simpa using hx
      rw [this]; exact ⟨rfl, rfl, rfl⟩

theorem addMod_mem (m : Nat) (ms : List Mod) : m ∈ ids (addMod m ms) := by
  unfold addMod
  split
  · rename_i h
    have := any_id.1 h
    obtain ⟨x, hx, hxm⟩ := List.mem_map.1 this
    refine List.mem_map.2 ⟨_, List.mem_map.2 ⟨x, hx, rfl⟩, ?_⟩
    split <;> exact hxm
  · simp [ids]

theorem collect_fresh (l : List Nat) (ms : List Mod) (h : ∀ x ∈ ms, Fresh x) :
    (∀ x ∈ l.foldl (fun a m => addMod m a) ms, Fresh x) ∧ (∀ m ∈ l, m ∈ ids (l.foldl (fun a m => addMod m a) ms)) := by
  induction l generalizing ms with
  | nil => exact ⟨h, by simp⟩
  | cons m l ih =>
    obtain ⟨h1, h2⟩ := ih (addMod m ms) (addMod_fresh m ms h)
    refine ⟨h1, fun k hk => ?_⟩
    rcases List.mem_cons.1 hk with rfl | hk
    · exact (foldl_ext _ (fun a m => addMod_ext m a) l _).sub k (addMod_mem k ms)
    · exact h2 k hk

theorem addInv_has (m : Nat) (ms : List Mod) : Has (·.inv) m (addInv m ms) := by
  unfold addInv
  split
  · rename_i h
    obtain ⟨x, hx, hxm⟩ := List.mem_map.1 (any_id.1 h)
    refine ⟨_, List.mem_map.2 ⟨x, hx, rfl⟩, ?_, ?_⟩
    · split <;> exact hxm
    · rw [if_pos (by simpa using hxm)]; rfl
  · exact ⟨{ id := m, inv := true }, by simp, rfl, rfl⟩

theorem addAllInv_has (l : List Nat) (ms : List Mod) (k : Nat) (hk : k ∈ l) :
    Has (·.inv) k (l.foldl (fun a m => addInv m a) ms) := by
  induction l generalizing ms with
  | nil => cases hk
  | cons m l ih =>
    rcases List.mem_cons.1 hk with rfl | hk
    · exact Has.foldl _ (fun a x ha => ha.addInv stays_inv) l (addInv_has k ms)
    · exact ih _ hk

/-- The modules of the changes are required and locked, their inverse dependencies are there. -/
theorem loaded_has (env : Env D) (s : Store D) (ds : Ds) (l : List Nat) (inv : Bool) (m : Nat) (hm : m ∈ l) :
    Has (fun x => x.req && decide (x.lock = .upgr)) m (loaded env s ds l inv).mods ∧
    (inv = true → ∀ k ∈ env.invDeps m, Has (·.inv) k (loaded env s ds l inv).mods) := by
  obtain ⟨hf, hi⟩ := collect_fresh l [] (by simp)
  have hmi := hi m hm
  have hmods : (loaded env s ds l inv).mods = consolidate env .req inv .upgr (l.foldl (fun a m => addMod m a) []) := rfl
  rw [hmods]
  generalize l.foldl (fun a m => addMod m a) [] = ms at hf hmi ⊢
  obtain ⟨x, hx, hxm⟩ := List.mem_map.1 hmi
  have hany : ms.any (·.new) = true := List.any_eq_true.2 ⟨x, hx, (hf x hx).new⟩
  have hreq : ∀ y ∈ markNew .req ms, y.lock = .none := by
    intro y hy
    obtain ⟨z, hz, rfl⟩ := List.mem_map.1 hy
    rw [if_pos (hf z hz).new]
    exact (hf z hz).lock
  have hxq : Has (fun x => x.req && decide (x.lock = .none)) m (markNew .req ms) := by
    refine ⟨_, List.mem_map.2 ⟨x, hx, rfl⟩, ?_, ?_⟩
    · rw [if_pos (hf x hx).new]; exact hxm
    · rw [if_pos (hf x hx).new]
      simp only [Mod.setKind, (hf x hx).lock, decide_true, Bool.and_self]
  have hlockInv : ∀ k (a : List Mod), Has (fun x => x.req && decide (x.lock = .none)) m a → Has (fun x => x.req && decide (x.lock = .none)) m (addInv k a) := by
    intro k a ha
    unfold addInv
    split
    · exact ha.map _ (fun x => by split <;> rfl) (fun x hx => by split <;> exact hx)
    · exact ha.append
  have hlk : ∀ a : List Mod, Has (fun x => x.req && decide (x.lock = .none)) m a →
      Has (fun x => x.req && decide (x.lock = .upgr)) m (lockMods .upgr a) := by
    rintro a ⟨y, hy, h1, h2⟩
    simp only [Bool.and_eq_true, decide_eq_true_eq] at h2
    refine ⟨_, List.mem_map.2 ⟨y, hy, rfl⟩, ?_, ?_⟩
    · rw [if_pos h2.2]; exact h1
    · rw [if_pos h2.2]; simp [h2.1]
  unfold consolidate
  rw [if_pos hany]
  cases inv with
  | false => exact ⟨hlk _ hxq, fun h => by cases h⟩
  | true =>
    refine ⟨hlk _ (Has.foldl _ (fun a y ha => Has.foldl _ (fun b k hb => hlockInv k b hb) _ ha) _ hxq), fun _ k hk => ?_⟩
    apply Has.lockMods stays_inv
    simp only [if_true]
    have hxin : ∃ y ∈ (markNew .req ms).filter (fun x => if Kind.req = .dep then x.dep else x.req), y.id = m := by
      obtain ⟨y, hy, h1, h2⟩ := hxq
      refine ⟨y, List.mem_filter.2 ⟨hy, ?_⟩, h1⟩
      simp only [Bool.and_eq_true] at h2
      simp [h2.1]
    generalize (markNew .req ms).filter (fun x => if Kind.req = .dep then x.dep else x.req) = qs at hxin
    generalize markNew .req ms = a
    induction qs generalizing a with
    | nil => obtain ⟨y, hy, -⟩ := hxin; cases hy
    | cons q qs ih =>
      obtain ⟨y, hy, hym⟩ := hxin
      simp only [List.foldl_cons]
      rcases List.mem_cons.1 hy with rfl | hy
      · refine Has.foldl _ (fun a y ha => Has.foldl _ (fun b k hb => hb.addInv stays_inv) _ ha) qs ?_
        rw [hym]
        exact addAllInv_has _ _ k hk
      · exact ih ⟨y, hy, hym⟩ _

/-- All modules named in the changes are in mod info. -/
theorem loaded_mem (env : Env D) (s : Store D) (ds : Ds) (l : List Nat) (inv : Bool) (m : Nat) (hm : m ∈ l) :
    m ∈ ids (loaded env s ds l inv).mods := by
  obtain ⟨x, hx, h, -⟩ := (loaded_has env s ds l inv m hm).1
  exact List.mem_map.2 ⟨x, hx, h⟩

/-- The data after applying the changes. -/
theorem editApply_data (env : Env D) (s : Store D) (ds : Ds) (e : Edit D) (inv : Bool) (m : Nat) :
    (editApply e (loaded env s ds e.mods inv)).data m = if m ∈ e.mods then e.new m (s.read ds m) else s.read ds m := by
  have hg := loaded_good env s ds e.mods inv
  show (applyLoop e (loaded env s ds e.mods inv).mods (s.read ds)).2 m = _
  rw [applyLoop_data e _ _ hg.nodup]
  unfold Edit.result
  by_cases hm : m ∈ e.mods
  · rw [if_pos (loaded_mem env s ds e.mods inv m hm), if_pos hm, if_pos (by simpa using hm)]
  · rw [if_neg hm]
    split
    · rw [if_neg (by simpa using hm)]
    · rfl

end Verif.Pipeline
