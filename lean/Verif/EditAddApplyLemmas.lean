import Verif.EditAddSeqLemmas
import Verif.EditRefuse
/-!
Applying the collected edit.
-/
namespace Verif.EditAdd
open Verif.Edit (Id Path Kind Op Tree Edit get WFs WFEs WFE Distincts Distinct Bares Bare Refused meantKids meantNode PurgesList)

/-! ### Identities are unique -/

mutual
/-- Siblings have different identities. -/
def Uniq : ENode → Prop
  | .mk _ _ _ kids => Uniqs kids
def Uniqs : List ENode → Prop
  | [] => True
  | e :: es => Uniq e ∧ (∀ x ∈ es, x.id ≠ e.id) ∧ Uniqs es
end

theorem uniq_kids {e : ENode} : Uniq e ↔ Uniqs e.kids := by cases e; rfl

theorem Uniqs.mem {es : List ENode} (h : Uniqs es) {e : ENode} (he : e ∈ es) : Uniq e := by
  induction es with
  | nil => simp at he
  | cons x xs ih =>
    simp only [Uniqs] at h
    rcases List.mem_cons.mp he with rfl | he
    · exact h.1
    · exact ih h.2.2 he

theorem Uniqs.map {es : List ENode} (h : Uniqs es) {g : ENode → ENode} (hid : ∀ e, (g e).id = e.id) (hg : ∀ e ∈ es, Uniq (g e)) : Uniqs (es.map g) := by
  induction es with
  | nil => trivial
  | cons x xs ih =>
    simp only [Uniqs] at h
    refine ⟨hg x (by simp), fun y hy => ?_, ih h.2.2 (fun e he => hg e (List.mem_cons_of_mem _ he))⟩
    obtain ⟨z, hz, rfl⟩ := List.mem_map.mp hy
    rw [hid, hid]; exact h.2.1 z hz

theorem Uniqs.filter {es : List ENode} (h : Uniqs es) (p : ENode → Bool) : Uniqs (es.filter p) := by
  induction es with
  | nil => trivial
  | cons x xs ih =>
    simp only [Uniqs] at h
    rw [List.filter_cons]
    split
    · exact ⟨h.1, fun y hy => h.2.1 y (List.mem_filter.mp hy).1, ih h.2.2⟩
    · exact ih h.2.2

theorem Uniqs.append {es : List ENode} {e : ENode} (h : Uniqs es) (he : Uniq e) (hn : ∀ x ∈ es, x.id ≠ e.id) : Uniqs (es ++ [e]) := by
  induction es with
  | nil => exact ⟨he, by simp, trivial⟩
  | cons x xs ih =>
    simp only [Uniqs] at h
    refine ⟨h.1, fun y hy => ?_, ih h.2.2 (fun z hz => hn z (List.mem_cons_of_mem _ hz))⟩
    rcases List.mem_append.mp hy with hy | hy
    · exact h.2.1 y hy
    · simp only [List.mem_singleton] at hy; subst hy; exact fun e => hn x (by simp) e.symm

theorem Uniqs.find {es : List ENode} (h : Uniqs es) {e : ENode} (he : e ∈ es) : es.find? (fun x => x.id = e.id) = some e := by
  induction es with
  | nil => simp at he
  | cons x xs ih =>
    simp only [Uniqs] at h
    rw [List.find?_cons]
    rcases List.mem_cons.mp he with rfl | he
    · simp
    · have : ¬ x.id = e.id := fun hc => h.2.1 e he hc.symm
      simp only [this, decide_false]
      exact ih h.2.2 he

theorem uniq_alter {f : ENode → ENode} (hid : ∀ e, (f e).id = e.id) (hf : ∀ e, Uniq e → Uniq (f e)) : ∀ (q : Path) (es : List ENode), Uniqs es → Uniqs (alter f es q)
  | [], es, h => h
  | i :: q, es, h => by
    simp only [alter]
    refine h.map (fun e => ?_) (fun e he => ?_)
    · split
      · split
        · exact hid e
        · rfl
      · rfl
    · have he' := h.mem he
      split
      · split
        · exact hf e he'
        · exact uniq_kids.mpr (uniq_alter hid hf q e.kids (uniq_kids.mp he'))
      · exact he'

theorem uniq_setOp {o : Option Op} {es : List ENode} (h : Uniqs es) (q : Path) : Uniqs (setOp o es q) :=
  uniq_alter (f := fun e => .mk e.id o e.val e.kids) (fun _ => rfl) (fun _ he => uniq_kids.mp he) q es h

theorem uniq_fill {o : Op} {j : Id} {es : List ENode} (h : Uniqs es) (q : Path) : Uniqs (fill o j es q) := by
  refine uniq_alter (f := fun e => .mk e.id e.op e.val (e.kids.map fun c => if c.id ≠ j ∧ c.op = none then .mk c.id (some o) c.val c.kids else c))
    (fun _ => rfl) (fun e he => ?_) q es h
  show Uniqs _
  refine (uniq_kids.mp he).map (fun c => ?_) (fun c hc => ?_)
  · split <;> rfl
  · have := (uniq_kids.mp he).mem hc
    split
    · show Uniqs c.kids; exact uniq_kids.mp this
    · exact this

theorem uniq_chain (v : Option Nat) : ∀ p, Uniqs (chain v p)
  | [] => trivial
  | i :: p => ⟨uniq_chain v p, by simp, trivial⟩

theorem uniq_grow (v : Option Nat) : ∀ (p : Path) (es : List ENode), Uniqs es → Uniqs (grow v es p)
  | [], es, h => h
  | i :: p, es, h => by
    simp only [grow]
    cases hf : es.find? (fun e => e.id = i) with
    | none =>
      simp only
      refine h.append (uniq_chain v p) (fun x hx e => ?_)
      have := List.find?_eq_none.mp hf x hx
      simp at this
      exact this e
    | some e =>
      refine h.map (fun e => ?_) (fun e he => ?_)
      · split <;> rfl
      · have he' := h.mem he
        split
        · exact uniq_kids.mpr (uniq_grow v p e.kids (uniq_kids.mp he'))
        · exact he'

theorem uniq_prune : ∀ (p : Path) (es : List ENode), Uniqs es → Uniqs (prune es p)
  | [], es, h => h
  | i :: p, es, h => by
    simp only [prune]
    split
    · exact h.filter _
    · refine h.map (fun e => ?_) (fun e he => ?_)
      · split <;> rfl
      · have he' := h.mem he
        split
        · exact uniq_kids.mpr (uniq_prune p e.kids (uniq_kids.mp he'))
        · exact he'

theorem uniq_update (d : Op) (p : Path) : ∀ (n : Nat) (pending : Option (Op × Bool)) (es es' : List ENode), Uniqs es → updateOp d p n pending es = some es' → Uniqs es' := by
  intro n
  induction n with
  | zero => intro _ es es' h hu; simp only [updateOp, Option.some.injEq] at hu; exact hu ▸ h
  | succ n ih =>
    intro pending es es' h hu
    simp only [updateOp] at hu
    split at hu
    · cases hu
    · split at hu
      · cases hu
      · simp only [Option.some.injEq] at hu; exact hu ▸ h
      · split at hu
        · split at hu
          · cases hu
          · split at hu
            · cases hu
            · split at hu
              · simp only [Option.some.injEq] at hu
                exact hu ▸ uniq_setOp (uniq_setOp (uniq_fill h _) _) _
              · exact ih _ _ _ (uniq_setOp (uniq_fill h _) _) hu
        · exact ih _ _ _ (uniq_fill h _) hu

theorem uniq_mergeOp (C : Cfg) (es : List ENode) (c : Call) (h : Uniqs es) : Uniqs (mergeOp C es c).1 := by
  simp only [mergeOp]
  repeat' split
  all_goals first
    | exact h
    | exact uniq_setOp h _
    | exact uniq_prune _ _ h
    | (refine uniq_alter ?_ ?_ _ _ h
       · intro e; rfl
       · intro e he; exact uniq_kids.mp he)
    | (refine uniq_alter ?_ ?_ _ _ h
       · intro e; rfl
       · intro e he; exact trivial)

theorem uniq_add (C : Cfg) (es : List ENode) (c : Call) (h : Uniqs es) : Uniqs (add C es c).1 := by
  simp only [add]
  split
  · split
    · split
      · refine uniq_mergeOp _ _ _ (uniq_alter ?_ ?_ _ _ h) <;> intro e <;> first | rfl | exact fun he => uniq_kids.mp he
      · split
        · refine uniq_mergeOp _ _ _ (uniq_alter ?_ ?_ _ _ h) <;> intro e <;> first | rfl | exact fun he => uniq_kids.mp he
        · exact h
    · exact uniq_mergeOp _ _ _ h
  · split
    · refine uniq_setOp ?_ _
      split
      · exact uniq_grow _ _ _ h
      · exact uniq_setOp (uniq_grow _ _ _ h) _
    · split
      · exact trivial
      · next hu => exact uniq_setOp (uniq_update _ _ _ _ _ _ (uniq_grow _ _ _ h) hu) _

theorem uniq_adds (C : Cfg) : ∀ (cs : List Call) (es es' : List ENode), Uniqs es → adds C es cs = some es' → Uniqs es'
  | [], es, es', h, ha => by simp only [adds, Option.some.injEq] at ha; exact ha ▸ h
  | c :: cs, es, es', h, ha => by
    simp only [adds] at ha
    split at ha
    · exact uniq_adds C cs _ es' (uniq_add C es c h) ha
    · cases ha

/-! ### Shape of the edit -/

mutual
/-- The edit of an orderly series of calls. -/
def Good (K : Nat → Kind) (inh : Option Op) : ENode → Prop
  | .mk i o v kids => (∃ op, o.or inh = some op ∧ op ≠ .purge ∧ op ≠ .replace) ∧ (K i.1 ≠ .leaf → v = some 0) ∧
      (K i.1 = .leaf ∨ K i.1 = .leaflist → kids = []) ∧ Goods K (o.or inh) kids
def Goods (K : Nat → Kind) (inh : Option Op) : List ENode → Prop
  | [] => True
  | e :: es => Good K inh e ∧ (∀ x ∈ es, x.id ≠ e.id) ∧ Goods K inh es
end

theorem toEdits_map (es : List ENode) : toEdits es = es.map toEdit := by
  induction es with
  | nil => rfl
  | cons e es ih => simp [toEdits, ih]

theorem toEdit_id (e : ENode) : (toEdit e).id = e.id := by cases e; rfl

mutual
theorem good_wf (K : Nat → Kind) : ∀ (e : ENode) (inh : Option Op), Good K inh e → WFE K (toEdit e) ∧ Distinct K inh (toEdit e) ∧ Bare inh (toEdit e)
  | .mk i o v kids, inh, h => by
    simp only [Good] at h
    obtain ⟨⟨op, h1, h2, h3⟩, h4, h5, h6⟩ := h
    obtain ⟨a, b, c⟩ := goods_wf K kids (o.or inh) h6
    refine ⟨⟨fun hl => by rw [h4 hl]; rfl, fun hl => by rw [h5 hl]; rfl, a⟩, b, ⟨fun hp => ?_, c⟩⟩
    rw [h1] at hp; exact absurd (by simpa using hp) h2
theorem goods_wf (K : Nat → Kind) : ∀ (es : List ENode) (inh : Option Op), Goods K inh es →
    WFEs K (toEdits es) ∧ Distincts K inh (toEdits es) ∧ Bares inh (toEdits es)
  | [], inh, _ => ⟨trivial, trivial, trivial⟩
  | e :: es, inh, h => by
    simp only [Goods] at h
    obtain ⟨h1, h2, h3⟩ := h
    obtain ⟨a, b, c⟩ := good_wf K e inh h1
    obtain ⟨a', b', c'⟩ := goods_wf K es inh h3
    refine ⟨⟨a, a'⟩, ⟨b, fun x hx => ?_, b'⟩, ⟨c, c'⟩⟩
    rw [toEdits_map] at hx
    obtain ⟨y, hy, rfl⟩ := List.mem_map.mp hx
    refine ⟨by rw [toEdit_id, toEdit_id]; exact h2 y hy, fun hp => ?_⟩
    exfalso
    have np : ∀ z : ENode, Good K inh z → ¬ PurgesList K inh (toEdit z) := by
      intro z hz hp
      cases z with
      | mk i o v kids =>
        simp only [Good] at hz
        obtain ⟨⟨op, g1, g2, _⟩, _⟩ := hz
        simp only [PurgesList, toEdit, Edit.op] at hp
        rw [g1] at hp
        exact g2 (by simpa using hp.1)
    have hmem : ∀ (l : List ENode), Goods K inh l → ∀ y ∈ l, Good K inh y := by
      intro l
      induction l with
      | nil => intro _ y hy; simp at hy
      | cons z l ih =>
        intro hl y hy
        simp only [Goods] at hl
        rcases List.mem_cons.mp hy with rfl | hy
        · exact hl.1
        · exact ih hl.2.2 y hy
    rcases hp with hp | hp
    · exact np e h1 hp
    · exact np y (hmem es h3 y hy) hp
end

section
variable {K : Nat → Kind} {f g : Data} {hist : List Call} {es : List ENode}

/-- `kids` are the nodes at `r`. -/
def At (es : List ENode) (r : Path) (kids : List ENode) : Prop := ∀ s, s ≠ [] → nodeAt es (r ++ s) = nodeAt kids s

theorem At.kid {r : Path} {kids : List ENode} (h : At es r kids) {i : Id} {e : ENode} (he : kids.find? (fun e => e.id = i) = some e) :
    nodeAt es (r ++ [i]) = some e ∧ At es (r ++ [i]) e.kids := by
  refine ⟨by rw [h _ (by simp)]; simp [nodeAt, he], fun s hs => ?_⟩
  rw [List.append_assoc, h _ (by simp)]
  simp [nodeAt, he, hs]

mutual
theorem inv_good (I : Inv K f hist g es) : ∀ (e : ENode) (r : Path), Uniq e → nodeAt es (r ++ [e.id]) = some e → Good K (eff es r) e
  | .mk i o v kids, r, hu, hn => by
    have hx : info es (r ++ [i]) = some (o, v) := by simp only [info]; simp only [ENode.id] at hn; rw [hn]; rfl
    obtain ⟨op, hop⟩ := eff_some_of_info I.top (r ++ [i]) (by rw [hx]; simp)
    have hs := I.sem _ op _ _ hop hx
    have hk : kindAt K (r ++ [i]) = some (K i.1) := by simp [kindAt]
    have hsh := I.shape _ _ _ hx
    rw [hk] at hsh
    have hoi : o.or (eff es r) = some op := by
      rw [eff_snoc, hx] at hop; simpa using hop
    refine ⟨⟨op, hoi, ?_, ?_⟩, fun hl => hsh.1 (by simpa using hl), fun hl => ?_, ?_⟩
    · rintro rfl; exact absurd hs (by simp [Sem])
    · rintro rfl; exact absurd hs (by simp [Sem])
    · have hin : ¬ Inner K (r ++ [i]) := by
        rintro ⟨h1, h2⟩; rw [hk] at h1 h2
        rcases hl with hl | hl
        · exact h1 (by rw [hl])
        · exact h2 (by rw [hl])
      cases kids with
      | nil => rfl
      | cons k ks =>
        have := hsh.2 hin k.id
        simp only [ENode.id] at hn
        rw [info_append es (by simp) (by simp), hn] at this
        simp [info, nodeAt, ENode.kids] at this
    · rw [hoi, ← hop]
      refine inv_goods I kids (r ++ [i]) hu (fun n hn' => ?_)
      simp only [ENode.id] at hn
      rw [nodeAt_append es _ _ (by simp) (by simp), hn]
      simp only [Option.bind_some, ENode.kids, nodeAt]
      have hu' : Uniqs kids := hu
      rw [hu'.find hn']; rfl
theorem inv_goods (I : Inv K f hist g es) : ∀ (kids : List ENode) (r : Path), Uniqs kids → (∀ n ∈ kids, nodeAt es (r ++ [n.id]) = some n) →
    Goods K (eff es r) kids
  | [], _, _, _ => trivial
  | e :: kids, r, hu, hn => by
    simp only [Uniqs] at hu
    exact ⟨inv_good I e r hu.1 (hn e (by simp)), hu.2.1, inv_goods I kids r hu.2.2 (fun n h => hn n (List.mem_cons_of_mem _ h))⟩
end

theorem inv_goods_top (I : Inv K f hist g es) (hu : Uniqs es) : Goods K none es := by
  have := inv_goods I es [] hu (fun n hn => by simp [nodeAt, hu.find hn])
  simpa using this

/-! ### What the edit means -/

/-- The meaning of the edit at a path. -/
def out (K : Nat → Kind) (inh : Option Op) (f : Data) (es : List ENode) : Path → Option (Nat × Bool)
  | [] => f []
  | i :: q =>
    match es.find? fun e => e.id = i with
    | none => f (i :: q)
    | some e =>
      match e.op.or inh with
      | none => f (i :: q)
      | some op =>
        if op = .remove ∨ op = .delete then none
        else if q = [] then
          if op = .ether ∨ op = .none then f [i]
          else some (e.val.getD 0, (f [i]).any fun x => x.1 = e.val.getD 0 && x.2 && K i.1 ≠ .leaf && K i.1 ≠ .leaflist)
        else out K (some op) (fun p => f (i :: p)) e.kids q

theorem out_congr {inh : Option Op} {f f' : Data} {es : List ENode} {i : Id} (h : ∀ p, f (i :: p) = f' (i :: p)) (q : Path) :
    out K inh f es (i :: q) = out K inh f' es (i :: q) := by
  simp only [out, h]

theorem meant_other {inh : Option Op} {f : Data} {e : ENode} (hg : Good K inh e) {j : Id} (hj : e.id ≠ j) (q : Path) :
    meantNode K inh false f (toEdit e) (j :: q) = f (j :: q) := by
  cases e with
  | mk i o v kids =>
    simp only [Good] at hg
    obtain ⟨⟨op, h1, h2, h3⟩, _⟩ := hg
    simp only [toEdit, meantNode, h1]
    have hj' : j ≠ i := fun e => hj e.symm
    cases op <;> simp_all

theorem meant_others {inh : Option Op} : ∀ (es : List ENode) (f : Data), Goods K inh es → ∀ {j : Id}, (∀ x ∈ es, x.id ≠ j) → ∀ q,
    meantKids K inh false f (toEdits es) (j :: q) = f (j :: q)
  | [], f, _, j, _, q => rfl
  | e :: es, f, h, j, hj, q => by
    simp only [Goods] at h
    simp only [toEdits, meantKids]
    rw [meant_others es _ h.2.2 (fun x hx => hj x (List.mem_cons_of_mem _ hx)) q, meant_other h.1 (hj e (by simp))]

theorem meant_out : ∀ (q : Path) (es : List ENode) (inh : Option Op) (f : Data), Goods K inh es → q ≠ [] →
    meantKids K inh false f (toEdits es) q = out K inh f es q
  | [], _, _, _, _, h => absurd rfl h
  | j :: q, es, inh, f, hg, _ => by
    induction es generalizing f with
    | nil => simp [toEdits, meantKids, out]
    | cons e es ih =>
      simp only [Goods] at hg
      simp only [toEdits, meantKids]
      by_cases hj : e.id = j
      · rw [meant_others es _ hg.2.2 (fun x hx => hj ▸ hg.2.1 x hx)]
        cases e with
        | mk i o v kids =>
          simp only [ENode.id] at hj
          subst hj
          have hg1 := hg.1
          simp only [Good] at hg1
          obtain ⟨⟨op, h1, h2, h3⟩, _, _, h6⟩ := hg1
          simp only [out, List.find?_cons, ENode.id, decide_true, ENode.op, h1, toEdit, meantNode]
          by_cases hq : q = []
          · subst hq
            cases op <;> simp_all [ENode.val] <;> (cases hf : f [i] with
              | none => simp
              | some x =>
                obtain ⟨w, b⟩ := x
                simp only [Option.any_some]
                by_cases hw : w = v.getD 0 <;> by_cases h1 : K i.1 = .leaf <;> by_cases h2 : K i.1 = .leaflist <;> simp_all)
          · rw [h1] at h6
            have := meant_out q kids (some op) (fun p => f (i :: p)) h6 hq
            cases q with
            | nil => exact absurd rfl hq
            | cons k q =>
              cases op <;> simp_all [ENode.kids]
      · have hrest := ih (meantNode K inh false f (toEdit e)) hg.2.2
        rw [hrest, out_congr (f' := f) (fun p => meant_other hg.1 hj p)]
        simp [out, hj]

theorem out_inv (I : Inv K f hist g es) : ∀ (q r : Path) (kids : List ENode), At es r kids → ¬ Gone es r → q ≠ [] →
    out K (eff es r) (fun p => f (r ++ p)) kids q = g (r ++ q)
  | [], _, _, _, _, h => absurd rfl h
  | i :: q, r, kids, hat, hng, _ => by
    simp only [out]
    have hri : ∀ p, r ++ i :: p = (r ++ [i]) ++ p := by intro p; simp
    cases hf : kids.find? (fun e => e.id = i) with
    | none =>
      have hab : ∀ p, info es (r ++ i :: p) = none := by
        intro p
        have h0 : nodeAt es (r ++ [i]) = none := by rw [hat _ (by simp)]; simp [nodeAt, hf]
        cases hx : info es (r ++ i :: p) with
        | none => rfl
        | some x =>
          rw [hri] at hx
          have := info_prefix (es := es) (q := r ++ [i]) (r := p) (by simp) (by rw [hx]; simp)
          simp [info, h0] at this
      refine (I.kept _ (by simp) (hab q) ?_).symm
      rintro ⟨t, ht, hrem⟩
      by_cases htr : t <+: r
      · exact hng ⟨t, htr, hrem⟩
      · have : ∃ p, t = r ++ i :: p := by
          have hl : r.length < t.length := by
            by_cases hl : t.length ≤ r.length
            · exact absurd (List.prefix_of_prefix_length_le ht (List.prefix_append _ _) hl) htr
            · omega
          have hrt : r <+: t := List.prefix_of_prefix_length_le (List.prefix_append _ _) ht (by omega)
          obtain ⟨s, rfl⟩ := hrt
          rw [List.prefix_append_right_inj] at ht
          cases s with
          | nil => simp at hl
          | cons x s => rw [List.cons_prefix_cons] at ht; exact ⟨s, by rw [ht.1]⟩
        obtain ⟨p, rfl⟩ := this
        rw [eff_absent (hab p)] at hrem
        simp [Rem] at hrem
    | some e =>
      obtain ⟨hn, hat'⟩ := hat.kid hf
      have hx : info es (r ++ [i]) = some (e.op, e.val) := by simp [info, hn]
      obtain ⟨op, hop⟩ := eff_some_of_info I.top _ (by rw [hx]; simp)
      have hoi : e.op.or (eff es r) = some op := by rw [eff_snoc, hx] at hop; simpa using hop
      have hs := I.sem _ op _ _ hop hx
      have hk : kindAt K (r ++ [i]) = some (K i.1) := by simp [kindAt]
      simp only [hoi]
      by_cases hrem : op = .remove ∨ op = .delete
      · rw [if_pos hrem]
        have : Rem (eff es (r ++ [i])) := by rw [hop]; rcases hrem with rfl | rfl <;> simp [Rem]
        rw [hri]
        exact (I.closed _ q (by simp) (rem_none I this).2).symm
      · rw [if_neg hrem]
        by_cases hq : q = []
        · subst hq
          simp only [if_true]
          cases op with
          | ether => simp only [Sem] at hs; simp [hs]
          | none => simp only [Sem] at hs; simp [hs.1]
          | merge =>
            simp only [Sem, hk] at hs
            rw [hs]; simp
          | create =>
            simp only [Sem, hk] at hs
            rw [hs.2]
            rcases hs.1 with h | ⟨h, w, h'⟩
            · simp [h]
            · simp only [Option.some.injEq] at h; simp [h, h']
          | remove => simp at hrem
          | delete => simp at hrem
          | replace => exact absurd hs (by simp [Sem])
          | purge => exact absurd hs (by simp [Sem])
        · rw [if_neg hq]
          have := out_inv I q (r ++ [i]) e.kids hat' (by
            rintro ⟨t, ht, h⟩
            rcases List.eq_nil_or_concat t with rfl | ⟨t', x, rfl⟩
            · simp [Rem] at h
            · by_cases htr : (t'.concat x) <+: r
              · exact hng ⟨_, htr, h⟩
              · have : t'.concat x = r ++ [i] := by
                  have hl : r.length < (t'.concat x).length := by
                    by_cases hl : (t'.concat x).length ≤ r.length
                    · exact absurd (List.prefix_of_prefix_length_le ht (List.prefix_append _ _) hl) htr
                    · omega
                  exact ht.eq_of_length (by have := ht.length_le; simp at this hl ⊢; omega)
                rw [this, hop] at h
                rcases h with h | h
                · exact hrem (.inl (by simpa using h))
                · exact hrem (.inr (by simpa using h))) hq
          rw [hop] at this
          rw [hri, ← this]
          simp

/-! ### The edit is not refused -/

theorem not_refused (I : Inv K f hist g es) (hf : Closed f) {inh : Option Op} {below has : Prop} {f' : Data} {e : Edit}
    (hr : Refused K inh below has f' e) : ∀ (r : Path) (n : ENode), e = toEdit n → Uniq n → nodeAt es (r ++ [n.id]) = some n → eff es r = inh →
      (below → Rem (eff es r)) → (¬ has → r ≠ [] ∧ f r = none ∧ inh ≠ some .merge ∧ inh ≠ some .create) → (∀ p, f' p = f (r ++ p)) → False := by
  have main : ∀ {o : Option Op} {r : Path} {i : Id} {v : Option Nat} {kids : List ENode} {inh : Option Op}, nodeAt es (r ++ [i]) = some (.mk i o v kids) → eff es r = inh →
      ∃ op, eff es (r ++ [i]) = some op ∧ o.or inh = some op ∧ Sem K f g op (v.getD 0) (r ++ [i]) := by
    intro o r i v kids inh hn hi
    have hx : info es (r ++ [i]) = some (o, v) := by simp only [info, hn]; rfl
    obtain ⟨op, hop⟩ := eff_some_of_info I.top _ (by rw [hx]; simp)
    refine ⟨op, hop, ?_, I.sem _ op _ _ hop hx⟩
    rw [eff_snoc, hx, hi] at hop; simpa using hop
  have hup : ∀ (r : Path) (i : Id), f (r ++ [i]) ≠ none → r ≠ [] → f r ≠ none := by
    intro r i h1 h2 h3; exact h1 (hf r [i] h2 h3)
  induction hr with
  | @noOperation below has f' i o v d kids h =>
    intro r n he hu hn hi hb hh hf'
    obtain ⟨i', o', v', kids'⟩ := n
    simp only [toEdit, Edit.mk.injEq] at he
    obtain ⟨rfl, rfl, rfl, rfl, rfl⟩ := he
    simp only [ENode.id] at hn
    obtain ⟨op, h1, h2, h3⟩ := main hn hi
    rw [h2] at h; cases h
  | @createExisting inh below has f' i o v d kids w b h1 h2 h3 h4 h5 =>
    intro r n he hu hn hi hb hh hf'
    obtain ⟨i', o', v', kids'⟩ := n
    simp only [toEdit, Edit.mk.injEq] at he
    obtain ⟨rfl, rfl, rfl, rfl, rfl⟩ := he
    simp only [ENode.id] at hn
    obtain ⟨op, g1, g2, g3⟩ := main hn hi
    rw [h1] at g2; cases g2
    simp only [Sem] at g3
    rw [hf'] at h3
    rcases g3.1 with h | ⟨h, w', h'⟩
    · rw [h] at h3; cases h3
    · rw [h'] at h3; cases h3
      exact h5 ⟨by simpa [kindAt] using h, rfl⟩
  | @deleteMissing inh below has f' i o v d kids h1 h2 =>
    intro r n he hu hn hi hb hh hf'
    obtain ⟨i', o', v', kids'⟩ := n
    simp only [toEdit, Edit.mk.injEq] at he
    obtain ⟨rfl, rfl, rfl, rfl, rfl⟩ := he
    simp only [ENode.id] at hn
    obtain ⟨op, g1, g2, g3⟩ := main hn hi
    rw [h1] at g2; cases g2
    simp only [Sem] at g3
    rcases h2 with h2 | h2
    · obtain ⟨q1, q2, _⟩ := hh h2
      exact hup r _ g3.2.1 q1 q2
    · rw [hf'] at h2; exact g3.2.1 h2
  | @deleteDefault inh below has f' i o v d kids w h1 h2 h3 h4 =>
    intro r n he hu hn hi hb hh hf'
    obtain ⟨i', o', v', kids'⟩ := n
    simp only [toEdit, Edit.mk.injEq] at he
    obtain ⟨rfl, rfl, rfl, rfl, rfl⟩ := he
    simp only [ENode.id] at hn
    obtain ⟨op, g1, g2, g3⟩ := main hn hi
    rw [h1] at g2; cases g2
    simp only [Sem] at g3
    rw [hf'] at h3
    exact g3.2.2 ⟨by simpa [kindAt] using h4, w, h3⟩
  | @noneMissing inh below has f' i o v d kids h1 h2 =>
    intro r n he hu hn hi hb hh hf'
    obtain ⟨i', o', v', kids'⟩ := n
    simp only [toEdit, Edit.mk.injEq] at he
    obtain ⟨rfl, rfl, rfl, rfl, rfl⟩ := he
    simp only [ENode.id] at hn
    obtain ⟨op, g1, g2, g3⟩ := main hn hi
    rw [h1] at g2; cases g2
    simp only [Sem] at g3
    rcases h2 with h2 | h2
    · obtain ⟨q1, q2, _⟩ := hh h2
      exact hup r _ g3.2 q1 q2
    · rw [hf'] at h2; exact g3.2 h2
  | @noParent inh below has f' i o v d kids op h1 h2 h3 =>
    intro r n he hu hn hi hb hh hf'
    obtain ⟨i', o', v', kids'⟩ := n
    simp only [toEdit, Edit.mk.injEq] at he
    obtain ⟨rfl, rfl, rfl, rfl, rfl⟩ := he
    simp only [ENode.id] at hn
    obtain ⟨op', g1, g2, g3⟩ := main hn hi
    rw [h1] at g2; cases g2
    obtain ⟨q1, q2, q3, q4⟩ := hh h3
    have hpr : info es r ≠ none := info_prefix q1 (r := [i]) (by simp [info, hn])
    obtain ⟨⟨o2, v2⟩, hy⟩ := Option.ne_none_iff_exists'.mp hpr
    obtain ⟨o3, ho3⟩ := eff_some_of_info I.top r hpr
    have hs3 := I.sem r o3 o2 v2 ho3 hy
    have hd := I.down r i op g1
    rw [← hi, ho3] at q3 q4
    rw [ho3] at hd
    cases o3 with
    | ether => have := hd.1 rfl; rcases h2 with rfl | rfl | rfl <;> simp at this
    | none => simp only [Sem] at hs3; exact hs3.2 q2
    | merge => exact q3 rfl
    | create => exact q4 rfl
    | remove => have := hd.2 (.inl rfl); rcases h2 with rfl | rfl | rfl <;> simp at this
    | delete => have := hd.2 (.inr rfl); rcases h2 with rfl | rfl | rfl <;> simp at this
    | replace => exact hs3
    | purge => exact hs3
  | @belowRemoved inh below has f' i o v d kids op h1 h2 h3 =>
    intro r n he hu hn hi hb hh hf'
    obtain ⟨i', o', v', kids'⟩ := n
    simp only [toEdit, Edit.mk.injEq] at he
    obtain ⟨rfl, rfl, rfl, rfl, rfl⟩ := he
    simp only [ENode.id] at hn
    obtain ⟨op', g1, g2, g3⟩ := main hn hi
    rw [h1] at g2; cases g2
    rcases (I.down r i op g1).2 (hb h2) with rfl | rfl
    · exact h3.2.1 rfl
    · exact h3.1 rfl
  | @child inh below has f' i o v d kids op c h1 h2 h3 ih =>
    intro r n he hu hn hi hb hh hf'
    obtain ⟨i', o', v', kids'⟩ := n
    simp only [toEdit, Edit.mk.injEq] at he
    obtain ⟨rfl, rfl, rfl, rfl, rfl⟩ := he
    simp only [ENode.id] at hn
    obtain ⟨op', g1, g2, g3⟩ := main hn hi
    rw [h1] at g2; cases g2
    rw [toEdits_map] at h2
    obtain ⟨n', hn', rfl⟩ := List.mem_map.mp h2
    have hu' : Uniqs kids' := hu
    refine ih (r ++ [i]) n' rfl (hu'.mem hn') ?_ g1 ?_ ?_ ?_
    · rw [nodeAt_append es _ _ (by simp) (by simp), hn]
      simp only [Option.bind_some, ENode.kids, nodeAt]
      rw [hu'.find hn']; rfl
    · rintro (h | ⟨h, _⟩)
      · rcases (I.down r i op g1).2 (hb h) with rfl | rfl
        · exact .inl g1
        · exact .inr g1
      · rcases h with rfl | rfl
        · exact .inr g1
        · exact .inl g1
    · intro h
      have h5 : ¬ (op = .merge ∨ op = .replace ∨ op = .create) := fun h' => h (.inl h')
      have h6 : ¬ (has ∧ f' [i] ≠ none) := fun h' => h (.inr h')
      refine ⟨by simp, ?_, fun e => h5 (.inl (by simpa using e)), fun e => h5 (.inr (.inr (by simpa using e)))⟩
      by_cases hx : f (r ++ [i]) = none
      · exact hx
      · have : ¬ has := fun hh' => h6 ⟨hh', by rw [hf']; exact hx⟩
        obtain ⟨q1, q2, _⟩ := hh this
        exact absurd q2 (hup r _ hx q1)
    · intro p; show f' (i :: p) = _; rw [hf']; simp
end

/-! ### The data -/

theorem closed_get (data : List Tree) : Closed (get data) := by
  intro q
  induction q generalizing data with
  | nil => intro r h; exact absurd rfl h
  | cons i q ih =>
    intro r _ hn
    simp only [Verif.Edit.get, List.cons_append] at hn ⊢
    cases hf : data.find? (fun t => t.id = i) with
    | none => rfl
    | some t =>
      simp only [hf] at hn ⊢
      by_cases hq : q = []
      · simp [hq] at hn
      · simp only [hq, if_false] at hn
        have : q ++ r ≠ [] := by simp [hq]
        simp only [this, if_false]
        exact ih t.kids r hq hn

theorem valued_get (K : Nat → Kind) : ∀ (q : Path) (data : List Tree), WFs K data → ∀ x, get data q = some x → kindAt K q ≠ some .leaf → x.1 = 0
  | [], _, _, x, h, _ => by simp [Verif.Edit.get] at h
  | i :: q, data, hw, x, h, hk => by
    simp only [Verif.Edit.get] at h
    cases hf : data.find? (fun t => t.id = i) with
    | none => simp [hf] at h
    | some t =>
      simp only [hf] at h
      obtain ⟨hm, hid⟩ := Verif.Edit.find_mem hf
      have ht := hw.mem hm
      by_cases hq : q = []
      · subst hq
        simp only [if_true, Option.some.injEq] at h
        cases t with
        | mk j v d kids =>
          simp only [Verif.Edit.Tree.id] at hid
          subst hid
          simp only [Verif.Edit.WF] at ht
          rw [← h]
          exact ht.1 (by simpa [kindAt] using hk)
      · simp only [hq, if_false] at h
        refine valued_get K q t.kids (Verif.Edit.WF.kids ht) x h ?_
        cases q with
        | nil => exact absurd rfl hq
        | cons j q => simpa [kindAt, List.getLast?_cons_cons] using hk

end Verif.EditAdd
