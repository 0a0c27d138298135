import Verif.EditDiff
/-!
When an edit is refused. The model is in `Verif.Edit`.
-/
namespace Verif.Edit

/-- The reasons for refusing a node of an edit. `f` is what is at a path before, `has` says whether the parent is there
when the node is applied and `below` whether the node is below a node that the edit removes. -/
inductive Refused (K : Nat → Kind) : Option Op → Prop → Prop → (Path → Option (Nat × Bool)) → Edit → Prop where
  | noOperation {below has f i o v d kids} : o.or none = none → Refused K none below has f (.mk i o v d kids)
  | createExisting {inh below has f i o v d kids w b} : o.or inh = some .create → has → f [i] = some (w, b) →
      K i.1 ≠ .npCont → ¬ (K i.1 = .leaf ∧ b = true) → Refused K inh below has f (.mk i o v d kids)
  | deleteMissing {inh below has f i o v d kids} : o.or inh = some .delete → (¬ has ∨ f [i] = none) →
      Refused K inh below has f (.mk i o v d kids)
  | deleteDefault {inh below has f i o v d kids w} : o.or inh = some .delete → has → f [i] = some (w, true) →
      (K i.1 = .leaf ∨ K i.1 = .leaflist) → Refused K inh below has f (.mk i o v d kids)
  | noneMissing {inh below has f i o v d kids} : o.or inh = some .none → (¬ has ∨ f [i] = none) →
      Refused K inh below has f (.mk i o v d kids)
  | noParent {inh below has f i o v d kids op} : o.or inh = some op → (op = .merge ∨ op = .replace ∨ op = .create) → ¬ has →
      Refused K inh below has f (.mk i o v d kids)
  | belowRemoved {inh below has f i o v d kids op} : o.or inh = some op → below →
      (op ≠ .delete ∧ op ≠ .remove ∧ op ≠ .purge) → Refused K inh below has f (.mk i o v d kids)
  | child {inh below has f i o v d kids op c} : o.or inh = some op → c ∈ kids →
      Refused K (some op) (below ∨ (op = .delete ∨ op = .remove) ∧ has ∧ f [i] ≠ none)
        ((op = .merge ∨ op = .replace ∨ op = .create) ∨ has ∧ f [i] ≠ none) (fun p => f (i :: p)) c →
      Refused K inh below has f (.mk i o v d kids)

mutual
/-- A node that removes all the instances has no other children than keys (which are in its identity). -/
def Bare (inh : Option Op) : Edit → Prop
  | .mk _ o _ _ kids => (o.or inh = some .purge → kids = []) ∧ Bares (o.or inh) kids
/-- The same for siblings. -/
def Bares (inh : Option Op) : List Edit → Prop
  | [] => True
  | e :: es => Bare inh e ∧ Bares inh es
end

theorem notBelow_iff (op : Op) : notBelowDelete op = true ↔ (op ≠ .delete ∧ op ≠ .remove ∧ op ≠ .purge) := by
  cases op <;> simp [notBelowDelete]

theorem actMissing_bad {op : Op} (h1 : actMissing op ≠ .skip) (h2 : actMissing op ≠ .new) (hp : op ≠ .purge) :
    op = .none ∨ op = .delete := by
  cases op <;> simp_all [actMissing]

theorem actMatched_bad {k : Kind} {op : Op} {t : Tree} {v : Nat} {d : Bool} (hp : op ≠ .purge)
    (h1 : actMatched k op t v d ≠ .del) (h2 : actMatched k op t v d ≠ .keep) (h3 : actMatched k op t v d ≠ .set)
    (h4 : actMatched k op t v d ≠ .dflt) :
    op = .create ∧ k ≠ .npCont ∧ ¬ (k = .leaf ∧ t.dflt = true) ∨
    op = .delete ∧ (k = .leaf ∨ k = .leaflist) ∧ t.dflt = true := by
  revert h1 h2 h3 h4
  cases op <;> simp only [actMatched, mergeMatched, createMatched, replaceMatched, deleteMatched] <;>
    (repeat' split) <;> simp_all

theorem actMatched_create {k : Kind} {t : Tree} {v : Nat} {d : Bool} (h1 : k ≠ .npCont) (h2 : ¬ (k = .leaf ∧ t.dflt = true)) :
    actMatched k .create t v d = .bad := by
  simp only [actMatched, createMatched, if_neg h1, if_neg h2]

theorem actMatched_delete {k : Kind} {t : Tree} {v : Nat} {d : Bool} (h : (k = .leaf ∨ k = .leaflist) ∧ t.dflt = true) :
    actMatched k .delete t v d = .bad := by
  simp only [actMatched, deleteMatched, if_pos h]

theorem actMatched_not_purge {k : Kind} {t : Tree} {v : Nat} {d : Bool} : actMatched k .purge t v d = .bad := rfl

theorem get_filter_kids {K : Nat → Kind} {ts : List Tree} (w : WFs K ts) {kids : List Edit} {c : Edit} (hc : c ∈ kids) (q : Path) :
    get (ts.filter fun t => (kids.map Edit.id).contains t.id) (c.id :: q) = get ts (c.id :: q) := by
  have h := get_filter w (fun t => (kids.map Edit.id).contains t) (c.id :: q)
  rw [h, if_pos]
  simp only [List.head?_cons, Option.any_some, List.contains_iff_mem]
  exact List.mem_map_of_mem hc

mutual
theorem refused_node (K : Nat → Kind) : ∀ (e : Edit) (inh : Option Op) (fl : Flags) (miss : Bool) (sibs : List Tree)
    (below has : Prop) (f : Path → Option (Nat × Bool)),
    WFE K e → Distinct K inh e → Bare inh e → WFs K sibs → (miss = true → sibs = []) →
    (below ↔ fl.del = true) → (has ↔ miss = false) → (miss = false → ∀ q, f (e.id :: q) = get sibs (e.id :: q)) →
    (applyNode K inh fl miss sibs e = none ↔ Refused K inh below has f e)
  | .mk i o v d kids, inh, fl, miss, sibs, below, has, f, we, hd, hb, ws, hm, hbel, hhas, hag => by
    obtain ⟨wv, wk, wks⟩ := we
    simp only [Distinct] at hd
    simp only [Bare] at hb
    simp only [Edit.id] at hag
    constructor
    · intro ha
      simp only [applyNode] at ha
      cases ho : o.or inh with
      | none =>
        cases o with
        | some x => simp at ho
        | none => simp only [Option.none_or] at ho; subst ho; exact .noOperation rfl
      | some op =>
        rw [ho] at hd hb
        simp only [ho] at ha
        split at ha
        · rename_i hnb
          simp only [Bool.and_eq_true] at hnb
          exact .belowRemoved ho (hbel.mpr hnb.1) ((notBelow_iff op).mp hnb.2)
        rename_i hnb
        split at ha
        · rename_i hp; subst hp
          rw [hb.1 rfl] at ha
          simp [applyKids] at ha
        rename_i hp
        split at ha
        · rename_i hf
          have hmissing : ¬ has ∨ f [i] = none := by
            cases hmi : miss with
            | true => left; intro h; simp [hmi] at hhas; exact hhas h
            | false =>
              right
              rw [hag hmi]
              simp only [hmi, Bool.false_eq_true, if_false] at hf
              simp [get, hf]
          have hne : ¬ (has ∧ f [i] ≠ none) := fun h => hmissing.elim (fun x => x h.1) h.2
          split at ha
          · rename_i hact
            have hop := actMissing_skip hact
            split at ha
            · rename_i hk
              have := (refused_kids K kids (some op) fl true []
                (below ∨ (op = .delete ∨ op = .remove) ∧ has ∧ f [i] ≠ none)
                ((op = .merge ∨ op = .replace ∨ op = .create) ∨ has ∧ f [i] ≠ none) (fun p => f (i :: p))
                wks hd hb.2 trivial (fun _ => rfl)
                (by rw [← hbel]; exact ⟨fun h => h.elim id (fun h => absurd h.2 hne), .inl⟩)
                (by constructor
                    · intro h; rcases h with h | h
                      · rcases hop with rfl | rfl <;> simp at h
                      · exact absurd h hne
                    · intro h; simp at h)
                (fun h => by simp at h)).mp hk
              obtain ⟨c, hc, hr⟩ := this
              exact .child ho hc hr
            · simp at ha
          · rename_i hact
            have hop := actMissing_new hact
            split at ha
            · rename_i hms
              exact .noParent ho hop (fun h => by simp [hms] at hhas; exact hhas h)
            · rename_i hms
              simp only [Bool.not_eq_true] at hms
              split at ha
              · rename_i hk
                have hfn : sibs.find? (fun t => t.id = i) = none := by simpa [hms] using hf
                have := (refused_kids K kids (some op) fl false []
                  (below ∨ (op = .delete ∨ op = .remove) ∧ has ∧ f [i] ≠ none)
                  ((op = .merge ∨ op = .replace ∨ op = .create) ∨ has ∧ f [i] ≠ none) (fun p => f (i :: p))
                  wks hd hb.2 trivial (fun h => by simp at h)
                  (by rw [← hbel]; exact ⟨fun h => h.elim id (fun h => absurd h.2 hne), .inl⟩)
                  (by simp [hop])
                  (fun _ e _ q => by rw [hag hms]; simp [get, hfn])).mp hk
                obtain ⟨c, hc, hr⟩ := this
                exact .child ho hc hr
              · simp at ha
          · rename_i h1 h2
            rcases actMissing_bad h1 h2 hp with rfl | rfl
            · exact .noneMissing ho hmissing
            · exact .deleteMissing ho hmissing
        · rename_i t hf
          have hms : miss = false := by cases hmi : miss <;> simp [hmi] at hf ⊢
          have hfs : sibs.find? (fun t => t.id = i) = some t := by simpa [hms] using hf
          have hh : has := hhas.mpr hms
          have hfi : f [i] = some (t.val, t.dflt) := by rw [hag hms, get_head hfs]; simp
          have hex : has ∧ f [i] ≠ none := ⟨hh, by simp [hfi]⟩
          have hfk : ∀ c q, f (i :: c :: q) = get t.kids (c :: q) := fun c q => by rw [hag hms, get_head hfs]; simp
          obtain ⟨tmem, tid⟩ := find_mem hfs
          have wt := ws.mem tmem
          have hstay : ∀ (repl : Bool) (base : List Tree), op ≠ .delete ∧ op ≠ .remove ∧ op ≠ .purge →
              base = (if repl then t.kids.filter fun c => (kids.map Edit.id).contains c.id else t.kids) →
              applyKids K (some op) ⟨repl, fl.del⟩ false base kids = none → Refused K inh below has f (.mk i o v d kids) := by
            intro repl base hop hbase hk
            have := (refused_kids K kids (some op) ⟨repl, fl.del⟩ false base
              (below ∨ (op = .delete ∨ op = .remove) ∧ has ∧ f [i] ≠ none)
              ((op = .merge ∨ op = .replace ∨ op = .create) ∨ has ∧ f [i] ≠ none) (fun p => f (i :: p))
              wks hd hb.2 (by rw [hbase]; split <;> first | exact wt.kids.filter _ | exact wt.kids) (fun h => by simp at h)
              (by simp only [hop.1, hop.2.1, or_self, false_and, or_false]; exact hbel) (by simp [hex])
              (fun _ c hc q => by
                rw [hfk, hbase]; split
                · rw [get_filter_kids wt.kids hc]
                · rfl)).mp hk
            obtain ⟨c, hc, hr⟩ := this
            exact .child ho hc hr
          cases hact : actMatched (K i.1) op t v d with
          | del =>
            simp only [hact] at ha
            have hop := actMatched_del hact
            split at ha
            · rename_i hk
              have := (refused_kids K kids (some op) ⟨fl.repl, true⟩ false _
                (below ∨ (op = .delete ∨ op = .remove) ∧ has ∧ f [i] ≠ none)
                ((op = .merge ∨ op = .replace ∨ op = .create) ∨ has ∧ f [i] ≠ none) (fun p => f (i :: p))
                wks hd hb.2 (wt.kids.filter _) (fun h => by simp at h)
                (by simp only [iff_true]; exact .inr ⟨hop, hex⟩) (by simp [hex])
                (fun _ c hc q => by rw [get_filter_kids wt.kids hc, hfk])).mp hk
              obtain ⟨c, hc, hr⟩ := this
              exact .child ho hc hr
            · simp at ha
          | keep =>
            simp only [hact] at ha
            split at ha
            · rename_i hk; exact hstay _ _ (actMatched_stay (.inl hact)) rfl hk
            · simp at ha
          | set =>
            simp only [hact] at ha
            split at ha
            · rename_i hk; exact hstay _ _ (actMatched_stay (.inr (.inl hact))) rfl hk
            · simp at ha
          | dflt =>
            simp only [hact] at ha
            split at ha
            · rename_i hk; exact hstay _ _ (actMatched_stay (.inr (.inr hact))) rfl hk
            · simp at ha
          | new | skip | bad =>
            rcases actMatched_bad (k := K i.1) (t := t) (v := v) (d := d) hp (by simp [hact]) (by simp [hact]) (by simp [hact]) (by simp [hact]) with
              ⟨rfl, hk1, hk2⟩ | ⟨rfl, hk1, hk2⟩
            · exact .createExisting ho hh hfi hk1 hk2
            · exact .deleteDefault ho hh (hk2 ▸ hfi) hk1
    · intro hr
      cases ha : applyNode K inh fl miss sibs (.mk i o v d kids) with
      | none => rfl
      | some r =>
        exfalso
        obtain ⟨op, ho, hnb, hap⟩ := applyNode_inv ha
        rw [ho] at hd hb
        -- what happened excludes every reason
        have hok : (∀ c ∈ kids, ¬ Refused K (some op) (below ∨ (op = .delete ∨ op = .remove) ∧ has ∧ f [i] ≠ none)
              ((op = .merge ∨ op = .replace ∨ op = .create) ∨ has ∧ f [i] ≠ none) (fun p => f (i :: p)) c) ∧
            (op = .create → has → ∀ w b, f [i] = some (w, b) → K i.1 = .npCont ∨ K i.1 = .leaf ∧ b = true) ∧
            (op = .delete ∨ op = .none → has ∧ f [i] ≠ none) ∧
            (op = .delete → ∀ w, f [i] = some (w, true) → ¬ (K i.1 = .leaf ∨ K i.1 = .leaflist)) ∧
            ((op = .merge ∨ op = .replace ∨ op = .create) → has) := by
          have hno : ∀ {fl' miss' sibs' r'}, applyKids K (some op) fl' miss' sibs' kids = some r' → WFs K sibs' →
              (miss' = true → sibs' = []) →
              ((below ∨ (op = .delete ∨ op = .remove) ∧ has ∧ f [i] ≠ none) ↔ fl'.del = true) →
              (((op = .merge ∨ op = .replace ∨ op = .create) ∨ has ∧ f [i] ≠ none) ↔ miss' = false) →
              (miss' = false → ∀ e ∈ kids, ∀ q, f (i :: e.id :: q) = get sibs' (e.id :: q)) →
              ∀ c ∈ kids, ¬ Refused K (some op) (below ∨ (op = .delete ∨ op = .remove) ∧ has ∧ f [i] ≠ none)
                ((op = .merge ∨ op = .replace ∨ op = .create) ∨ has ∧ f [i] ≠ none) (fun p => f (i :: p)) c := by
            intro fl' miss' sibs' r' hk w' hm' h1 h2 h3 c hc hrc
            have := (refused_kids K kids (some op) fl' miss' sibs' _ _ (fun p => f (i :: p)) wks hd hb.2 w' hm' h1 h2 h3).mpr ⟨c, hc, hrc⟩
            rw [hk] at this; simp at this
          cases hap with
          | purge r' hk => simp [hb.1 rfl]
          | skip op hop hf r' hk =>
            have hne : ¬ (has ∧ f [i] ≠ none) := by
              rintro ⟨h1, h2⟩
              have hmf := hhas.mp h1
              rcases hf with h | h
              · simp [hmf] at h
              · exact h2 (by rw [hag hmf]; simp [get, h])
            refine ⟨hno hk trivial (fun _ => rfl) ?_ ?_ ?_, ?_⟩
            · rw [← hbel]; exact ⟨fun h => h.elim id (fun h => absurd h.2 hne), .inl⟩
            · constructor
              · intro h; rcases h with h | h
                · rcases hop with rfl | rfl <;> simp at h
                · exact absurd h hne
              · intro h; simp at h
            · intro h; simp at h
            · rcases hop with rfl | rfl <;> simp
          | new op hop hms hf r' hk =>
            have hfi : f [i] = none := by rw [hag hms]; simp [get, hf]
            refine ⟨hno hk trivial (fun h => by simp at h) ?_ ?_ ?_, ?_, ?_, ?_, ?_⟩
            · rw [← hbel]; exact ⟨fun h => h.elim id (fun h => absurd hfi h.2.2), .inl⟩
            · simp [hop]
            · intro _ e _ q; rw [hag hms]; simp [get, hf]
            · intro _ _ w b h; simp [hfi] at h
            · rcases hop with rfl | rfl | rfl <;> simp
            · intro _ w h; simp [hfi] at h
            · intro _; exact hhas.mpr hms
          | del op t hop hms hf hact r' hk =>
            obtain ⟨tmem, tid⟩ := find_mem hf
            have wt := ws.mem tmem
            have hh : has := hhas.mpr hms
            have hfi : f [i] = some (t.val, t.dflt) := by rw [hag hms, get_head hf]; simp
            have hex : has ∧ f [i] ≠ none := ⟨hh, by simp [hfi]⟩
            refine ⟨hno hk (wt.kids.filter _) (fun h => by simp at h) ?_ ?_ ?_, ?_, ?_, ?_, ?_⟩
            · simp only [iff_true]; exact .inr ⟨hop, hex⟩
            · simp [hex]
            · intro _ c hc q; rw [get_filter_kids wt.kids hc, hag hms, get_head hf]; simp
            · rcases hop with rfl | rfl <;> simp
            · intro _; exact hex
            · intro h w hw hl
              subst h
              rw [hfi] at hw
              simp only [Option.some.injEq, Prod.mk.injEq] at hw
              rw [actMatched_delete ⟨hl, hw.2⟩] at hact
              simp at hact
            · intro _; exact hh
          | stay op t a repl base rest nv nd diff ch hop hms hf hact hr hrest hbase r' hk hres =>
            obtain ⟨tmem, tid⟩ := find_mem hf
            have wt := ws.mem tmem
            have hh : has := hhas.mpr hms
            have hfi : f [i] = some (t.val, t.dflt) := by rw [hag hms, get_head hf]; simp
            have hex : has ∧ f [i] ≠ none := ⟨hh, by simp [hfi]⟩
            refine ⟨hno hk (by rw [hbase]; split <;> first | exact wt.kids.filter _ | exact wt.kids) (fun h => by simp at h) ?_ ?_ ?_,
              ?_, ?_, ?_, ?_⟩
            · simp only [hop.1, hop.2.1, or_self, false_and, or_false]; exact hbel
            · simp [hex]
            · intro _ c hc q
              rw [hag hms, get_head hf, hbase]
              simp only [reduceCtorEq, if_false]
              split
              · rw [get_filter_kids wt.kids hc]
              · rfl
            · intro h _ w b hw
              subst h
              rw [hfi] at hw
              simp only [Option.some.injEq, Prod.mk.injEq] at hw
              by_cases h1 : K i.1 = .npCont
              · exact .inl h1
              · by_cases h2 : K i.1 = .leaf ∧ t.dflt = true
                · exact .inr (hw.2 ▸ h2)
                · rw [actMatched_create h1 h2] at hact
                  subst hact
                  simp at hres
            · intro _; exact hex
            · intro h; exact absurd h hop.1
            · intro _; exact hh
        obtain ⟨o1, o2, o3, o4, o5⟩ := hok
        cases hr with
        | noOperation h =>
          cases o <;> simp at h ho
        | createExisting h h1 h2 h3 h4 =>
          rw [ho, Option.some.injEq] at h; subst h
          rcases o2 rfl h1 _ _ h2 with h5 | h5
          · exact h3 h5
          · exact h4 h5
        | deleteMissing h h1 =>
          rw [ho, Option.some.injEq] at h
          have := o3 (.inl h)
          exact h1.elim (fun x => x this.1) this.2
        | deleteDefault h h1 h2 h3 =>
          rw [ho, Option.some.injEq] at h
          exact o4 h _ h2 h3
        | noneMissing h h1 =>
          rw [ho, Option.some.injEq] at h
          have := o3 (.inr h)
          exact h1.elim (fun x => x this.1) this.2
        | noParent h h1 h2 =>
          rw [ho, Option.some.injEq] at h; subst h
          exact h2 (o5 h1)
        | belowRemoved h h1 h2 =>
          rw [ho, Option.some.injEq] at h; subst h
          have h3 := (notBelow_iff op).mpr h2
          rw [hbel.mp h1, h3] at hnb
          simp at hnb
        | child h hc h1 =>
          rw [ho, Option.some.injEq] at h; subst h
          exact o1 _ hc h1
theorem refused_kids (K : Nat → Kind) : ∀ (es : List Edit) (inh : Option Op) (fl : Flags) (miss : Bool) (sibs : List Tree)
    (below has : Prop) (f : Path → Option (Nat × Bool)),
    WFEs K es → Distincts K inh es → Bares inh es → WFs K sibs → (miss = true → sibs = []) →
    (below ↔ fl.del = true) → (has ↔ miss = false) → (miss = false → ∀ e ∈ es, ∀ q, f (e.id :: q) = get sibs (e.id :: q)) →
    (applyKids K inh fl miss sibs es = none ↔ ∃ e ∈ es, Refused K inh below has f e)
  | [], inh, fl, miss, sibs, below, has, f, we, hd, hb, ws, hm, hbel, hhas, hag => by simp [applyKids]
  | e :: es, inh, fl, miss, sibs, below, has, f, we, hd, hb, ws, hm, hbel, hhas, hag => by
    have i1 := refused_node K e inh fl miss sibs below has f we.1 hd.1 hb.1 ws hm hbel hhas (fun h => hag h e (by simp))
    simp only [applyKids, List.mem_cons, exists_eq_or_imp]
    cases h1 : applyNode K inh fl miss sibs e with
    | none => simp [i1.mp h1]
    | some r1 =>
      have hn : ¬ Refused K inh below has f e := fun h => by rw [i1.mpr h] at h1; simp at h1
      have m1 := meant_node K e inh fl miss sibs r1 we.1 ws hm h1
      have d1 := diff_node K e inh fl miss sibs r1 we.1 hd.1 ws hm h1
      have i2 := refused_kids K es inh fl miss r1.data below has f we.2 hd.2.2 hb.2 m1.1 m1.2.1 hbel hhas (by
        intro hmf x hx q
        rw [hag hmf x (by simp [hx]), ← d1.told.after _ (by simp), after_none_of]
        intro y hy hyx
        obtain ⟨z, hz, ht⟩ := d1.touched y hy
        simp only [List.mem_singleton] at hz; subst hz
        obtain ⟨hne, hp⟩ := hd.2.1 x hx
        rw [hyx] at ht
        rcases ht with ht | ⟨hpl, ht⟩
        · exact hne ht
        · exact hp (.inl hpl) ht)
      simp only [hn, false_or]
      rw [← i2]
      cases h2 : applyKids K inh fl miss r1.data es <;> simp
end

theorem actMatched_dflt {k : Kind} {op : Op} {t : Tree} {v : Nat} {d : Bool} (h : actMatched k op t v d = .dflt)
    (hd : op = .create → d = false) : t.dflt ≠ d := by
  revert h
  cases op <;> simp only [actMatched, mergeMatched, createMatched, replaceMatched, deleteMatched] <;>
    (repeat' split) <;> simp_all

mutual
theorem change_node (K : Nat → Kind) : ∀ (e : Edit) (inh : Option Op) (fl : Flags) (miss : Bool) (sibs : List Tree) (r : Res),
    Explicit inh e → applyNode K inh fl miss sibs e = some r → (r.change = true ↔ r.diff ≠ [])
  | .mk i o v d kids, inh, fl, miss, sibs, r, hx, ha => by
    obtain ⟨op, ho, hnb, hap⟩ := applyNode_inv ha
    simp only [Explicit, ho] at hx
    cases hap with
    | purge r' hk => simp
    | skip op hop hf r' hk => simp
    | new op hop hms hf r' hk => simp
    | del op t hop hms hf hact r' hk => simp
    | stay op t a repl base rest nv nd diff ch hop hms hf hact hr hrest hbase r' hk hres =>
      have ih := change_kids K kids (some op) _ _ _ r' hx.2 hk
      rcases hres with ⟨_, _, _, h3, h4⟩ | ⟨_, _, _, h3, h4⟩ | ⟨h0, _, _, h4, h3⟩
      · simp only [h3, h4, Bool.or_eq_true, ih]
        by_cases he : rest = [] <;> by_cases hd : r'.diff = [] <;> simp [he, hd]
      · simp [h3, h4]
      · have := actMatched_dflt (h0 ▸ hact) (fun h => hx.1 (by rw [h]))
        simp [h3, h4, this]
theorem change_kids (K : Nat → Kind) : ∀ (es : List Edit) (inh : Option Op) (fl : Flags) (miss : Bool) (sibs : List Tree) (r : Res),
    Explicits inh es → applyKids K inh fl miss sibs es = some r → (r.change = true ↔ r.diff ≠ [])
  | [], inh, fl, miss, sibs, r, hx, ha => by rw [applyKids_nil ha]; simp
  | e :: es, inh, fl, miss, sibs, r, hx, ha => by
    simp only [applyKids] at ha
    cases h1 : applyNode K inh fl miss sibs e with
    | none => simp [h1] at ha
    | some r1 =>
      cases h2 : applyKids K inh fl miss r1.data es with
      | none => simp [h1, h2] at ha
      | some r2 =>
        simp only [h1, h2, Option.some.injEq] at ha; subst ha
        have i1 := change_node K e inh fl miss sibs r1 hx.1 h1
        have i2 := change_kids K es inh fl miss r1.data r2 hx.2 h2
        simp only [Bool.or_eq_true, i1, i2, ne_eq, List.append_eq_nil_iff, Classical.not_and_iff_not_or_not]
end

end Verif.Edit
