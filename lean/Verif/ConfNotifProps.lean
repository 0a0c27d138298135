import Verif.ConfNotif
/-!
Property C137: changes of the configuration are notified. Specification (`IsEdit`, `Same`) in `Verif/ConfNotif.lean`.
-/
namespace Verif.ConfNotif
open Verif.ChangeIter
open Verif.Edit (Tree WFs WFEs Distincts get Path)
open Verif.Bytes (Buf le32 IsStr)

theorem edits_iter (n : Nat) : ∀ (set : List Spot) (cs : List Change), iter n set = some cs →
    edits n set = some (cs.map fun c => (c.target, opEnum c.op)) := by
  induction n with
  | zero => intro set cs h; simp [iter] at h
  | succ n ih =>
    intro set cs h
    simp only [iter] at h
    simp only [edits]
    split at h
    · simp at h
    · rename_i hg
      cases h; simp [hg]
    · rename_i s op rest hg
      split at h
      · simp at h
      · rename_i c hv
        have hc : c.target = s.target ∧ c.op = op := by
          simp only [values] at hv
          split at hv
          · cases hv; exact ⟨rfl, rfl⟩
          · split at hv
            · cases hv; exact ⟨rfl, rfl⟩
            · simp at hv
          · split at hv
            · cases hv; exact ⟨rfl, rfl⟩
            · split at hv
              · cases hv; exact ⟨rfl, rfl⟩
              · simp at hv
          · split at hv
            · cases hv; exact ⟨rfl, rfl⟩
            · simp at hv
        cases hi : iter n rest with
        | none => simp [hi] at h
        | some cs' =>
          simp only [hi, Option.map_some, Option.some.injEq] at h
          subst h
          simp [hg, ih _ _ hi, hc.1, hc.2]

/-- All the nodes are selected. -/
theorem edits_read (diff : List Node) (cs : List Change) (h : readChanges diff (fun _ => true) = some cs) :
    edits ((spotsL [] diff).length + 1) (spotsL [] diff) = some (cs.map fun c => (c.target, opEnum c.op)) := by
  have hf : (spotsL [] diff).filter (fun s => (fun _ => true) s.target) = spotsL [] diff := by simp
  simp only [readChanges] at h
  rw [hf] at h
  exact edits_iter _ _ _ h

/-- An operation found is on the node or on an ancestor. -/
theorem findOp_mem : ∀ (l : List Node) (b : Bool) (op : MOp) (n : Node) (own : Bool), findOp l b = some (op, n, own) →
    n ∈ l ∧ n.m.op = some op := by
  intro l
  induction l with
  | nil => intro b op n own h; simp [findOp] at h
  | cons a l ih =>
    intro b op n own h
    simp only [findOp] at h
    split at h
    · rename_i o ho
      simp only [Option.some.injEq, Prod.mk.injEq] at h
      obtain ⟨rfl, rfl, _⟩ := h
      exact ⟨by simp, ho⟩
    · obtain ⟨h1, h2⟩ := ih _ _ _ _ h
      exact ⟨by simp [h1], h2⟩

mutual
theorem anc_spots : ∀ (t : Node) (anc : List Node) (s : Spot), s ∈ spots anc t → ∀ a ∈ s.node :: s.anc,
    a ∈ anc ∨ ∃ s' ∈ spots anc t, s'.node = a
  | .mk i k u ky v d m kids, anc, s, hs, a, ha => by
    simp only [spots, List.mem_cons] at hs
    rcases hs with rfl | hs
    · simp only [List.mem_cons] at ha
      rcases ha with rfl | ha
      · exact .inr ⟨⟨_, anc⟩, by simp [spots], rfl⟩
      · exact .inl ha
    · rcases anc_spotsL kids _ s hs a ha with h | ⟨s', h1, h2⟩
      · simp only [List.mem_cons] at h
        rcases h with rfl | h
        · exact .inr ⟨⟨_, anc⟩, by simp [spots], rfl⟩
        · exact .inl h
      · exact .inr ⟨s', by simp [spots, h1], h2⟩
theorem anc_spotsL : ∀ (ts : List Node) (anc : List Node) (s : Spot), s ∈ spotsL anc ts → ∀ a ∈ s.node :: s.anc,
    a ∈ anc ∨ ∃ s' ∈ spotsL anc ts, s'.node = a
  | [], anc, s, hs, a, ha => by simp [spotsL] at hs
  | t :: ts, anc, s, hs, a, ha => by
    simp only [spotsL, List.mem_append] at hs
    rcases hs with hs | hs
    · rcases anc_spots t anc s hs a ha with h | ⟨s', h1, h2⟩
      · exact .inl h
      · exact .inr ⟨s', by simp [spotsL, h1], h2⟩
    · rcases anc_spotsL ts anc s hs a ha with h | ⟨s', h1, h2⟩
      · exact .inl h
      · exact .inr ⟨s', by simp [spotsL, h1], h2⟩
end

theorem getNext_change : ∀ (l : List Spot) (skip : Option Path) (s : Spot) (op : ChOp) (rest : List Spot),
    getNext skip l = .change s op rest → s ∈ l ∧ ∃ o n own, findOp (s.node :: s.anc) true = some (o, n, own) ∧ o ≠ .none := by
  intro l
  induction l with
  | nil => intro skip s op rest h; simp [getNext] at h
  | cons a l ih =>
    intro skip s op rest h
    simp only [getNext] at h
    split at h
    · obtain ⟨h1, h2⟩ := ih _ _ _ _ h
      exact ⟨by simp [h1], h2⟩
    · split at h
      · simp at h
      · rename_i o holder own hf
        split at h
        · obtain ⟨h1, h2⟩ := ih _ _ _ _ h
          exact ⟨by simp [h1], h2⟩
        · split at h
          · obtain ⟨h1, h2⟩ := ih _ _ _ _ h
            exact ⟨by simp [h1], h2⟩
          · cases h; exact ⟨by simp, _, _, _, hf, by simp⟩
          · cases h; exact ⟨by simp, _, _, _, hf, by simp⟩
          · split at h
            · cases h; exact ⟨by simp, _, _, _, hf, by simp⟩
            · cases h; exact ⟨by simp, _, _, _, hf, by simp⟩
            · cases h; exact ⟨by simp, _, _, _, hf, by simp⟩
            · simp at h

/-- Reading a change means that there are changes. -/
theorem hasChanges_of_read (diff : List Node) (c : Change) (cs : List Change)
    (h : readChanges diff (fun _ => true) = some (c :: cs)) : hasChanges diff = true := by
  have hf : (spotsL [] diff).filter (fun s => (fun _ => true) s.target) = spotsL [] diff := by simp
  simp only [readChanges] at h
  rw [hf] at h
  simp only [iter] at h
  split at h
  · simp at h
  · simp at h
  · rename_i s op rest hg
    obtain ⟨h1, o, n, own, h2, h3⟩ := getNext_change _ _ _ _ _ hg
    obtain ⟨h4, h5⟩ := findOp_mem _ _ _ _ _ h2
    rcases anc_spotsL diff [] s h1 n h4 with h6 | ⟨s', h6, h7⟩
    · simp at h6
    · simp only [hasChanges, List.any_eq_true]
      refine ⟨s', h6, ?_⟩
      rw [h7, h5]
      cases o <;> simp_all

/-- Data that are the same give a diff without changes. -/
theorem not_hasChanges (S : Schema) (f g : Path → Option (Nat × Bool)) (ds : List Verif.Edit.Diff) (he : Verif.Edit.Exact f g ds)
    (hs : Same f g) : hasChanges (toNodes S [] ds) = false := by
  rw [Bool.eq_false_iff]
  intro h
  simp only [hasChanges, List.any_eq_true] at h
  obtain ⟨s, h1, h2⟩ := h
  obtain ⟨⟨t, op⟩, hx, hi⟩ := info_mem h1
  simp only [info, rowInfo, Prod.mk.injEq] at hi
  rw [mem_rowsL S ds [] t op he.tidy] at hx
  obtain ⟨_, q, hq, _, ho⟩ := hx
  have hsay := he.says q hq
  rw [ho] at hsay
  have hsq := hs q
  have hv : rowVerdict S (t, op) = .skip := by
    cases op with
    | none => cases t <;> rfl
    | dflt => cases t <;> rfl
    | create v d => simp only [Verif.Edit.Says] at hsay; simp [hsay.1, hsay.2] at hsq
    | delete v d => simp only [Verif.Edit.Says] at hsay; simp [hsay.1, hsay.2] at hsq
    | replace v d w b =>
      simp only [Verif.Edit.Says] at hsay
      simp only [hsay.2.1, hsay.2.2, Option.map_some, Option.some.injEq] at hsq
      exact absurd hsq.symm hsay.1
  have hvs : verdict s = .skip := hi.2.1.trans hv
  cases hop : s.node.m.op with
  | none => rw [hop] at h2; simp at h2
  | some o =>
    rw [hop] at h2
    simp only [verdict, findOp, hop, Bool.not_true, Bool.false_and, Bool.false_eq_true, if_false] at hvs
    cases o with
    | none => simp at h2
    | create => simp at hvs
    | delete => simp at hvs
    | replace => cases hk : s.node.kind <;> simp [hk] at hvs

/-- Reading the originator. -/
theorem changedBy_by {s : Session} {u : Buf} {i : Nat} (h : By s u i) : changedBy s = some (u, i) := by
  cases h with
  | own h => simp [changedBy, netopeer, h]
  | client u i hn hi hu ht hs h32 =>
    have hn' : s.orig.name = some netopeer := hn
    simp only [changedBy, hn', if_true]
    cases hd : s.orig.data with
    | none => rw [hd] at hi; simp [Verif.EvData.evGet] at hi
    | some d =>
      rw [hd] at hi hu ht
      simp only [Verif.EvData.evGet] at hi hu ht
      cases hc : Verif.Bytes.rd32 d 0 with
      | none => simp [hc] at hi
      | some c =>
        simp only [hc] at hi hu ht
        split at hu
        · simp at hu
        rename_i hc1
        have hc2 : c = 2 := by
          split at ht
          · omega
          · split at ht
            · simp at ht
            · split at ht
              · simp at ht
              · split at ht <;> simp at ht
        rw [if_neg (by omega)] at hi
        simp only [Verif.EvData.skip] at hi hu
        cases h4 : Verif.Bytes.rd32 d 4 with
        | none => simp [h4] at hi
        | some sz =>
          simp only [h4] at hi hu
          cases hsl : Verif.Bytes.slice d (4 + 4) sz with
          | none => simp [hsl] at hi
          | some x =>
            simp only [hsl, Verif.EvData.Get.ok.injEq] at hi
            subst hi
            have hsz : sz = 4 ∧ Verif.Bytes.At d 8 (le32 i) := by
              simp only [Verif.Bytes.slice] at hsl
              split at hsl
              · rename_i hle
                simp only [Option.some.injEq] at hsl
                have hlen := congrArg List.length hsl
                simp [Verif.Bytes.le32_length] at hlen
                have h44 : sz = 4 := by omega
                refine ⟨h44, fun k hk => ?_⟩
                rw [← hsl, List.getElem?_take, if_pos (by rw [h44]; simpa [Verif.Bytes.le32_length] using hk), List.getElem?_drop]
              · simp at hsl
            obtain ⟨rfl, hat⟩ := hsz
            cases h12 : Verif.Bytes.rd32 d (4 + 4 + 4) with
            | none => simp [h12] at hu
            | some sz' =>
              simp only [h12] at hu
              cases hsl' : Verif.Bytes.slice d (4 + 4 + 4 + 4) sz' with
              | none => simp [hsl'] at hu
              | some y =>
                simp only [hsl', Verif.EvData.Get.ok.injEq] at hu
                subst hu
                have hat' : Verif.Bytes.At d 16 (u ++ [0]) := by
                  simp only [Verif.Bytes.slice] at hsl'
                  split at hsl'
                  · simp only [Option.some.injEq] at hsl'
                    have hlen := congrArg List.length hsl'
                    simp at hlen
                    intro k hk
                    rw [← hsl', List.getElem?_take, if_pos (by simp at hk; omega), List.getElem?_drop]
                  · simp at hsl'
                simp [hc, hat'.cstr hs, hat.rd32 h32, hc2]

/-- **C137 (partial: without failures, and with an originator that is not `netopeer2` or has pushed its session ID and user name).** For
every edit applied to any data of the startup or running datastore: if a node was created, deleted or got another value, the subscribers,
if there are any, get exactly one notification, and the same one is stored for replay, if that is enabled. It names the user and the
datastore, and its edits are exactly the nodes that were created, deleted or got another value, each once and none after something in it. -/
theorem notified_exact_partial (S : Schema) (data : List Tree) (edit : List Verif.Edit.Edit) (r : Verif.Edit.Res)
    (hd : WFs S.K data) (hed : WFEs S.K edit) (hx : Distincts S.K none edit)
    (hk : ∀ n, (S.keys n).Nodup) (h : Verif.Edit.apply S.K data edit = some r)
    (e : Env) (he : e.lockOk = true ∧ e.sendOk = true ∧ e.storeOk = true) (ds : Ds) (hds : ds = .startup ∨ ds = .running)
    (s : Session) (u : Buf) (i : Nat) (hb : By s u i) (hc : ¬ Same (get data) (get r.data)) :
    ∃ n : Notif, generate e ds s (toNodes S [] r.diff) =
        .ret ((if e.subs = 0 then [] else [.sent n]) ++ (if e.replay then [.stored n] else [])) false ∧
      n.user = u ∧ n.sid = i ∧ n.ds = ds ∧ (∀ x, x ∈ n.edits ↔ IsEdit S (get data) (get r.data) x) ∧
      n.edits.Pairwise fun a b => Before a.1 b.1 := by
  obtain ⟨cs, h1, h2, h3⟩ := changes_are_the_difference S data edit r (fun _ => true) hd hed hx hk h
  have hne : cs ≠ [] := by
    rintro rfl
    exact hc fun p => (nothing_read_nothing_changed S data edit r hd hed hx hk h h1 p).symm
  have hh : hasChanges (toNodes S [] r.diff) = true := by
    cases cs with
    | nil => exact absurd rfl hne
    | cons c cs => exact hasChanges_of_read _ _ _ h1
  have hed' := edits_read _ _ h1
  refine ⟨⟨u, i, ds, cs.map fun c => (c.target, opEnum c.op)⟩, ?_, rfl, rfl, rfl, ?_, ?_⟩
  · have hds' : (decide (ds = .candidate) || decide (ds = .operational)) = false := by
      rcases hds with rfl | rfl <;> rfl
    simp only [generate, hh, Bool.not_true, Bool.false_eq_true, if_false, hds', changedBy_by hb, hed', publish, he.1, he.2.1, he.2.2]
    cases hr : e.replay <;> by_cases hs : e.subs = 0 <;> simp [hs]
  · rintro ⟨t, o⟩
    simp only [List.mem_map, Prod.mk.injEq]
    constructor
    · rintro ⟨c, hc1, rfl, rfl⟩
      obtain ⟨⟨o1, o2, o3, _⟩, _⟩ := (h2 c).mp hc1
      rw [o1, o2] at o3
      simp only [IsEdit]
      cases ho1 : see S (get data) c.target <;> cases ho2 : see S (get r.data) c.target <;>
        simp only [ho1, ho2, opOf] at o3
      · simp at o3
      · cases o3' : c.op <;> simp_all [opEnum]
      · cases o3' : c.op <;> simp_all [opEnum]
      · split at o3
        · simp at o3
        · rename_i a b hab
          obtain ⟨v, d⟩ := a
          obtain ⟨w, b'⟩ := b
          cases o3' : c.op <;> simp_all [opEnum]
    · intro hi
      have key : ∀ op, opOf (see S (get data) t) (see S (get r.data) t) = some op → opEnum op = o →
          ∃ c ∈ cs, c.target = t ∧ opEnum c.op = o := fun op ho hoo =>
        ⟨⟨op, t, see S (get data) t, see S (get r.data) t, placeOf S op t⟩, (h2 _).mpr ⟨⟨rfl, rfl, ho, rfl⟩, rfl⟩, rfl, hoo⟩
      have : ∃ c ∈ cs, c.target = t ∧ opEnum c.op = o := by
        cases o with
        | create =>
          obtain ⟨a, b⟩ := hi
          simp only at a b
          cases hb : see S (get r.data) t with
          | none => exact absurd hb b
          | some w => exact key .created (by simp [a, hb, opOf]) rfl
        | delete =>
          obtain ⟨a, b⟩ := hi
          simp only at a b
          cases ha : see S (get data) t with
          | none => exact absurd ha a
          | some w => exact key .deleted (by simp [ha, b, opOf]) rfl
        | replace =>
          obtain ⟨v, d, w, b, h4, h5, h6⟩ := hi
          simp only at h4 h5
          exact key .modified (by simp [h4, h5, opOf, h6]) rfl
        | merge => exact absurd hi (by simp [IsEdit])
      obtain ⟨c, a1, a2, a3⟩ := this
      exact ⟨c, a1, a2, a3⟩
  · rw [List.pairwise_map]
    exact h3

/-- C137. If no node was created, deleted or given another value, nothing is sent or stored and there is no error, whatever the state and
the session. -/
theorem unchanged_silent (S : Schema) (data : List Tree) (edit : List Verif.Edit.Edit) (r : Verif.Edit.Res)
    (hd : WFs S.K data) (hed : WFEs S.K edit) (hx : Distincts S.K none edit)
    (h : Verif.Edit.apply S.K data edit = some r) (e : Env) (ds : Ds) (s : Session) (hs : Same (get data) (get r.data)) :
    generate e ds s (toNodes S [] r.diff) = .ret [] false := by
  have he := Verif.Edit.exact_kids_all S.K edit none ⟨false, false⟩ false data r hed hx hd (fun h => by simp at h) h
  simp [generate, not_hasChanges S _ _ _ he hs]

/-- C137. Changes of the candidate and operational datastores are never notified, whatever the diff. -/
theorem other_datastores_silent (e : Env) (ds : Ds) (s : Session) (diff : List Node) (h : ds ≠ .startup ∧ ds ≠ .running) :
    generate e ds s diff = .ret [] false := by
  obtain ⟨h1, h2⟩ := h
  cases ds with
  | startup => exact absurd rfl h1
  | running => exact absurd rfl h2
  | candidate => simp [generate]
  | operational => simp [generate]

/-- C137. For any diff, moves included: the edits of a notification that is sent or stored are the changes the callbacks of subscribers
to these changes read, in the same order, where created is `create`, modified `replace`, deleted `delete` and moved `merge`. -/
theorem same_as_callbacks (e : Env) (ds : Ds) (s : Session) (diff : List Node) (cs : List Change) (acts : List Act) (err : Bool)
    (hc : readChanges diff (fun _ => true) = some cs) (hg : generate e ds s diff = .ret acts err) (n : Notif)
    (hn : .sent n ∈ acts ∨ .stored n ∈ acts) :
    n.edits.length = cs.length ∧ ∀ (k : Nat) t o c, n.edits[k]? = some (t, o) → cs[k]? = some c → t = c.target ∧
      (o = .create ↔ c.op = .created) ∧ (o = .replace ↔ c.op = .modified) ∧ (o = .delete ↔ c.op = .deleted) ∧
      (o = .merge ↔ c.op = .moved) := by
  have hed' := edits_read _ _ hc
  have hne : n.edits = cs.map fun c => (c.target, opEnum c.op) := by
    simp only [generate, hed'] at hg
    split at hg
    · cases hg; simp at hn
    split at hg
    · cases hg; simp at hn
    split at hg
    · cases hg; simp at hn
    split at hg
    · simp at hg
    simp only [publish] at hg
    split at hg
    · cases hg; simp at hn
    split at hg
    · cases hg; simp at hn
    have key : ∀ m : Notif, (.sent n ∈ acts ∨ .stored n ∈ acts) →
        (∀ a ∈ acts, a = .sent m ∨ a = .stored m) → n = m := by
      intro m h1 h2
      rcases h1 with h1 | h1 <;> rcases h2 _ h1 with h3 | h3 <;> simp at h3 <;> exact h3
    have := key _ hn (by
      intro a ha
      by_cases h0 : e.subs = 0 <;> cases hr : e.replay <;> cases ht : e.storeOk <;> simp [h0, hr, ht] at hg <;>
        (obtain ⟨rfl, _⟩ := hg; simp at ha) <;> first | exact .inl ha | exact .inr ha | exact ha)
    rw [this]
  rw [hne]
  refine ⟨by simp, ?_⟩
  intro k t o c h1 h2
  simp only [List.getElem?_map, h2, Option.map_some, Option.some.injEq, Prod.mk.injEq] at h1
  obtain ⟨rfl, rfl⟩ := h1
  refine ⟨rfl, ?_⟩
  cases c.op <;> simp [opEnum]

/-- C137. The subscribers never get a notification other than the one stored, and an error is returned exactly if one of them that was
wanted is missing: nothing is lost without an error. -/
theorem lost_only_with_error (e : Env) (n : Notif) :
    ∃ acts err, publish e n = .ret acts err ∧ (∀ a ∈ acts, a = .sent n ∨ a = .stored n) ∧ acts.Nodup ∧
      (err = false → (.sent n ∈ acts ↔ e.subs ≠ 0) ∧ (.stored n ∈ acts ↔ e.replay = true)) := by
  obtain ⟨replay, subs, lockOk, sendOk, storeOk⟩ := e
  by_cases h : subs = 0 <;> cases replay <;> cases lockOk <;> cases sendOk <;> cases storeOk <;> simp [publish, h]

/-- C137. For any diff that has a node with an operation: if the call returns without an error, every subscriber was sent a notification
and, with replay support, one was stored. -/
theorem never_missing_without_error (e : Env) (ds : Ds) (hds : ds = .startup ∨ ds = .running) (s : Session) (diff : List Node)
    (hc : ∃ x ∈ spotsL [] diff, ∃ op, x.node.m.op = some op ∧ op ≠ .none) (acts : List Act)
    (hg : generate e ds s diff = .ret acts false) :
    (e.subs ≠ 0 → ∃ n, .sent n ∈ acts) ∧ (e.replay = true → ∃ n, .stored n ∈ acts) := by
  obtain ⟨x, hx, op, ho, hn⟩ := hc
  have hh : hasChanges diff = true := by
    simp only [hasChanges, List.any_eq_true]
    exact ⟨x, hx, by rw [ho]; simpa using hn⟩
  have hds' : (decide (ds = .candidate) || decide (ds = .operational)) = false := by
    rcases hds with rfl | rfl <;> rfl
  simp only [generate, hh, hds', Bool.not_true, Bool.false_eq_true, if_false] at hg
  split at hg
  · rename_i h0
    simp at h0
    exact ⟨fun h => absurd h0.2 h, fun h => by simp [h0.1] at h⟩
  · split at hg
    · simp at hg
    · split at hg
      · simp at hg
      · obtain ⟨acts', err, hp, _, _, h3⟩ := lost_only_with_error e _
        rw [hp] at hg
        cases hg
        obtain ⟨h4, h5⟩ := h3 rfl
        exact ⟨fun h => ⟨_, h4.mpr h⟩, fun h => ⟨_, h5.mpr h⟩⟩

/-- C137 is false with failures: if sending fails (for instance because a subscriber has not processed the notification before in time),
the call that changed the data returns an error although the changes were stored, and the notification is not stored for replay either,
although that would have succeeded. -/
theorem send_failure_not_replayed (e : Env) (h : e.subs ≠ 0 ∧ e.sendOk = false) (n : Notif) : publish e n = .ret [] true := by
  cases hl : e.lockOk <;> simp [publish, h.1, h.2, hl]

/-- A concrete state like that, which has replay enabled and could store. -/
example : publish ⟨true, 1, true, false, true⟩ ⟨[97], 0, .running, []⟩ = .ret [] true :=
  send_failure_not_replayed _ (by decide) _

/-- C137 is false for the originator name `netopeer2` set with `sr_session_set_orig_name()` without pushing data: the process making the
change crashes, after the changes were stored, whenever there is a subscriber or replay support. -/
theorem originator_name_crashes (junk : Nat → Nat) (e : Env) (he : e.replay = true ∨ e.subs ≠ 0) (ds : Ds)
    (hds : ds = .startup ∨ ds = .running) (user : Buf) (diff : List Node) (hc : hasChanges diff = true) :
    ∃ o, Verif.EvData.runOps junk ⟨none, none⟩ [.setName (some [110, 101, 116, 111, 112, 101, 101, 114, 50])] = some o ∧
      generate e ds ⟨user, o⟩ diff = .crash := by
  refine ⟨_, rfl, ?_⟩
  have h1 : (!e.replay && e.subs == 0) = false := by
    rcases he with h | h <;> simp [h]
  have hds' : (decide (ds = .candidate) || decide (ds = .operational)) = false := by
    rcases hds with rfl | rfl <;> rfl
  simp [generate, hc, h1, hds', changedBy, netopeer]

/-- C137. With any other originator the call returns. -/
theorem other_originators_return (e : Env) (ds : Ds) (s : Session) (diff : List Node)
    (h : s.orig.name ≠ some [110, 101, 116, 111, 112, 101, 101, 114, 50]) : generate e ds s diff ≠ .crash := by
  have hb := changedBy_by (By.own h)
  simp only [generate, hb]
  repeat' split
  all_goals first
    | (simp; done)
    | (obtain ⟨acts, err, hp, _⟩ := lost_only_with_error e _; rw [hp]; simp)

/-- The originator calls of the NETCONF server: session ID 7 and user `ab`. -/
def exOrig : Verif.EvData.Sess :=
  (Verif.EvData.runOps (fun i => i + 3) ⟨none, none⟩ [.setName (some netopeer), .push [7, 0, 0, 0], .push [97, 98, 0]]).getD ⟨none, none⟩

example : By ⟨[114], exOrig⟩ [97, 98] 7 :=
  .client [97, 98] 7 (by decide) (by decide) (by decide) (by decide) (by intro c hc; simp at hc; omega) (by decide)

/-- The notification of the edit of the example of C64 made by it. -/
example : (Verif.Edit.apply exS.K Verif.Edit.exData Verif.Edit.exEdit).map (fun r =>
    generate ⟨true, 2, true, true, true⟩ .running ⟨[114], exOrig⟩ (toNodes exS [] r.diff)) =
    let n : Notif := ⟨[97, 98], 7, .running, [(.node [(0, 0), (1, 1), (2, 0)], .delete), (.node [(0, 0), (1, 1), (3, 9)], .create),
      (.node [(0, 0), (1, 3)], .create), (.key [(0, 0), (1, 3)] 9, .create), (.node [(0, 0), (1, 3), (2, 0)], .create)]⟩
    some (.ret [.sent n, .stored n] false) := by decide +kernel

/-- The data changed. -/
example : ∃ r, Verif.Edit.apply exS.K Verif.Edit.exData Verif.Edit.exEdit = some r ∧ ¬ Same (get Verif.Edit.exData) (get r.data) := by
  refine ⟨_, rfl, fun h => absurd (h [(0, 0), (1, 3)]) (by decide +kernel)⟩

end Verif.ConfNotif
