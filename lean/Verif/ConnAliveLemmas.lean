import Verif.ConnAlive

/-!
# Live and dead connections: the invariant
-/

namespace Verif.ConnAlive

theorem upd_same {α : Type} (f : Nat → α) (k : Nat) (a : α) : upd f k a k = a := by simp [upd]

theorem upd_ne {α : Type} (f : Nat → α) {k i : Nat} (a : α) (h : i ≠ k) : upd f k a i = f i := by simp [upd, h]

/-- The identifier a connecting thread has before it is in the list. -/
def Pc.conn : Pc → Option Cid
  | .new c | .made c _ | .locked c _ | .named c _ => some c
  | _ => none

/-- The new file a connecting thread has. -/
def Pc.file : Pc → Option Ino
  | .made _ i | .locked _ i | .named _ i => some i
  | _ => none

/-- What holds of a thread by where it is. -/
def PcInv (ow : Tid → Pid) (s : State) (t : Tid) : Pc → Prop
  | .idle | .joined _ | .discErr _ => True
  | .new c => c < s.next ∧ s.was c = false
  | .made c i => c < s.next ∧ s.was c = false ∧ (∃ k, k < s.fresh ∧ i = inoOf k) ∧ ∀ c', s.ino c' ≠ some i
  | .locked c i => c < s.next ∧ s.was c = false ∧ (∃ k, k < s.fresh ∧ i = inoOf k) ∧ (∀ c', s.ino c' ≠ some i) ∧
      (s.dead (ow t) = false → s.lock i = some (ow t))
  | .named c i => c < s.next ∧ s.was c = false ∧ s.ino c = some i ∧ s.path c = some i ∧
      (s.dead (ow t) = false → s.lock i = some (ow t))
  | .removed c => s.was c = true ∧ s.est c = false
  | .chk c g => s.was c = true ∧ (g = true → s.est c = false)
  | .notOwn c g => s.was c = true ∧ s.list (ow t) c = none ∧ (g = true → s.est c = false)
  | .opened c i g => s.was c = true ∧ s.list (ow t) c = none ∧ (g = true → s.est c = false) ∧ s.ino c = some i
  | .tested c i f g => s.was c = true ∧ s.list (ow t) c = none ∧ (f = true → s.est c = false) ∧ (f = false → g = false) ∧ s.ino c = some i
  | .unlinking c _ => s.was c = true ∧ s.est c = false
  | .answer c b g => (b = false → s.was c = true ∧ s.est c = false) ∧ (b = true → g = false)

structure Glob (s : State) : Prop where
  /-- a connection in a list has its lock file, locked -/
  held : ∀ p c i, s.list p c = some i → s.dead p = false ∧ s.path c = some i ∧ s.lock i = some p ∧ s.was c = true ∧ s.ino c = some i
  /-- a connection in a list is established -/
  estL : ∀ c p i, s.list p c = some i → s.est c = true
  estR : ∀ c, s.est c = true → ∃ p i, s.list p c = some i
  inoFresh : ∀ c i, s.ino c = some i → ∃ k, k < s.fresh ∧ i = inoOf k
  inoInj : ∀ c c' i, s.ino c = some i → s.ino c' = some i → c = c'
  inoPath : ∀ c i, s.was c = true → s.path c = some i → s.ino c = some i
  wasNext : ∀ c, s.was c = true → c < s.next

structure Inv (ow : Tid → Pid) (s : State) : Prop where
  glob : Glob s
  thr : ∀ t, PcInv ow s t (s.pc t)
  /-- a lock is of a connection in a list or of one being created -/
  locks : ∀ i p, s.lock i = some p → (∃ c, s.list p c = some i) ∨ ∃ t c, ow t = p ∧ (s.pc t = .locked c i ∨ s.pc t = .named c i)
  connInj : ∀ t t' c, (s.pc t).conn = some c → (s.pc t').conn = some c → t = t'
  fileInj : ∀ t t' i, (s.pc t).file = some i → (s.pc t').file = some i → t = t'

theorem inoOf_inj {a b : Nat} (h : inoOf a = inoOf b) : a = b := Nat.eq_of_mul_eq_mul_left (by decide : 0 < 2) h

theorem inv_init (ow : Tid → Pid) (old : Cid → Bool) : Inv ow (init old) := by
  constructor
  · constructor <;> simp [init]
  all_goals simp [init, Pc.conn, Pc.file, PcInv]

/-- Only the place of one thread changes, to one that is not connecting. -/
theorem inv_pc {ow : Tid → Pid} {s : State} (h : Inv ow s) {t : Tid} {q : Pc} (hq : PcInv ow s t q)
    (hc : q.conn = none) (hf : q.file = none) (h1 : ∀ c i, s.pc t ≠ .locked c i) (h2 : ∀ c i, s.pc t ≠ .named c i) :
    Inv ow { s with pc := upd s.pc t q } := by
  obtain ⟨g, a1, a2, a3, a4⟩ := h
  refine ⟨⟨g.1, g.2, g.3, g.4, g.5, g.6, g.7⟩, ?_, ?_, ?_, ?_⟩
  · intro u
    show PcInv ow _ u (upd s.pc t q u)
    by_cases hu : u = t
    · subst hu
      rw [upd_same]
      cases q <;> exact hq
    · rw [upd_ne _ _ hu]
      have := a1 u
      revert this
      cases s.pc u <;> exact id
  · intro i p hl
    rcases a2 i p hl with h | ⟨u, c, hu, hp⟩
    · exact .inl h
    · refine .inr ⟨u, c, hu, ?_⟩
      have hne : u ≠ t := by rintro rfl; rcases hp with hp | hp <;> simp_all
      simpa [upd, hne] using hp
  · intro u u' c hu hu'
    simp only [upd] at hu hu'
    split at hu <;> split at hu' <;> simp_all
    exact a3 _ _ _ hu hu'
  · intro u u' c hu hu'
    simp only [upd] at hu hu'
    split at hu <;> split at hu' <;> simp_all
    exact a4 _ _ _ hu hu'

/-- A connection is in one list only. -/
theorem Glob.uniq {s : State} (g : Glob s) (p q : Pid) (c : Cid) (i j : Ino) (h : s.list p c = some i) (h' : s.list q c = some j) : p = q := by
  have a := g.held _ _ _ h
  have b := g.held _ _ _ h'
  have : j = i := by have := b.2.2.2.2; rw [a.2.2.2.2] at this; injection this with this; exact this.symm
  subst this
  have := b.2.2.1
  rw [a.2.2.1] at this
  injection this

macro "ca_glob" : tactic => `(tactic| (constructor <;> dsimp only <;> intros <;> (try simp only [upd] at *) <;> grind [inoOf_inj, PcInv]))

macro "ca_thr" s:ident t:ident a:ident : tactic => `(tactic| (
  intro u
  dsimp only
  have hu := $a u
  by_cases hut : u = $t
  · subst hut
    simp only [upd_same, PcInv] <;> grind [upd, PcInv]
  · rw [upd_ne _ _ hut]
    revert hu
    cases hq : State.pc $s u <;> simp only [PcInv] <;> intro hu <;> grind [upd, Pc.conn, Pc.file]))

macro "ca_inj" : tactic => `(tactic| (intros; (try simp only [upd] at *); grind [Pc.conn, Pc.file, PcInv, inoOf_inj]))

theorem inv_connect {ow : Tid → Pid} {s s' : State} (h : Inv ow s) {t : Tid} (hs : step ow s (.connect t) = some s') : Inv ow s' := by
  simp only [step] at hs
  split at hs
  case isFalse => cases hs
  rename_i hc
  obtain ⟨hd, hp⟩ := hc
  injection hs with hs
  subst hs
  obtain ⟨⟨g1, g2, g3, g4, g5, g6, g7⟩, a1, a2, a3, a4⟩ := h
  refine ⟨?_, ?_, ?_, ?_, ?_⟩
  · ca_glob
  · ca_thr s t a1
  · ca_inj
  · have hn : ∀ u c, (s.pc u).conn = some c → c < s.next := by
      intro u c hu
      have := a1 u
      revert hu this
      cases s.pc u <;> simp only [Pc.conn, PcInv] <;> grind
    ca_inj
  · ca_inj

theorem inv_check {ow : Tid → Pid} {s s' : State} (h : Inv ow s) {t : Tid} {c : Cid} (hk : s.was c = true)
    (hs : step ow s (.check t c) = some s') : Inv ow s' := by
  simp only [step] at hs
  split at hs
  case isFalse => cases hs
  rename_i hc
  obtain ⟨hd, hp⟩ := hc
  injection hs with hs
  subst hs
  refine inv_pc h ⟨hk, ?_⟩ rfl rfl (by simp [hp]) (by simp [hp])
  simp

theorem inv_disconnect {ow : Tid → Pid} {s s' : State} (h : Inv ow s) {t : Tid} {c : Cid}
    (hs : step ow s (.disconnect t c) = some s') : Inv ow s' := by
  simp only [step] at hs
  split at hs
  case isFalse => cases hs
  rename_i hc
  obtain ⟨hd, hp⟩ := hc
  split at hs
  · cases hs
  rename_i i hl
  have hh := h.glob.held _ _ _ hl
  rw [if_pos hh.2.2.1] at hs
  injection hs with hs
  subst hs
  have hL : ∀ q d, (upd s.list (ow t) (upd (s.list (ow t)) c none)) q d = if q = ow t ∧ d = c then none else s.list q d := by
    intro q d
    simp only [upd]
    by_cases hq : q = ow t
    · subst hq
      by_cases hd' : d = c <;> simp [hd', upd]
    · simp [hq]
  generalize upd s.list (ow t) (upd (s.list (ow t)) c none) = L at hL ⊢
  have hU := h.glob.uniq
  obtain ⟨⟨g1, g2, g3, g4, g5, g6, g7⟩, a1, a2, a3, a4⟩ := h
  refine ⟨?_, ?_, ?_, ?_, ?_⟩
  · ca_glob
  · ca_thr s t a1
  · ca_inj
  · ca_inj
  · ca_inj

theorem inv_crash {ow : Tid → Pid} {s s' : State} (h : Inv ow s) {p : Pid}
    (hs : step ow s (.crash p) = some s') : Inv ow s' := by
  simp only [step] at hs
  injection hs with hs
  subst hs
  have hL : ∀ q d, (upd s.list p (fun _ => none)) q d = if q = p then none else s.list q d := by
    intro q d
    simp only [upd]
    by_cases hq : q = p <;> simp [hq]
  have hE : ∀ d, (s.est d && (s.list p d).isNone) = true ↔ s.est d = true ∧ s.list p d = none := by
    intro d
    simp
  have hF : ∀ d, s.est d = false → (s.est d && (s.list p d).isNone) = false := by
    intro d hd
    simp [hd]
  generalize hl : upd s.list p (fun _ => none) = L at hL ⊢
  obtain ⟨E, hEE⟩ : ∃ E : Cid → Bool, E = fun d => s.est d && (s.list p d).isNone := ⟨_, rfl⟩
  rw [← hEE]
  replace hE : ∀ d, E d = true ↔ s.est d = true ∧ s.list p d = none := by rw [hEE]; exact hE
  replace hF : ∀ d, s.est d = false → E d = false := by rw [hEE]; exact hF
  clear hEE hl
  have hU := h.glob.uniq
  have hK : ∀ d q i, s.list q d = some i → q ≠ p → s.est d = true → E d = true := by
    intro d q i hq hne he
    refine (hE d).2 ⟨he, ?_⟩
    cases hx : s.list p d
    · rfl
    · exact absurd (hU _ _ _ _ _ hq hx) hne
  obtain ⟨⟨g1, g2, g3, g4, g5, g6, g7⟩, a1, a2, a3, a4⟩ := h
  refine ⟨?_, ?_, ?_, a3, a4⟩
  · ca_glob
  · intro u
    dsimp only
    have hu := a1 u
    revert hu
    cases hq : s.pc u <;> simp only [PcInv] <;> intro hu <;> grind [upd]
  · ca_inj

set_option maxHeartbeats 4000000 in
theorem inv_run {ow : Tid → Pid} {s s' : State} (h : Inv ow s) {t : Tid} {ok : Bool}
    (hs : step ow s (.run t ok) = some s') : Inv ow s' := by
  simp only [step] at hs
  split at hs
  case isFalse => cases hs
  rename_i hd
  have ht := h.thr t
  unfold run at hs
  cases hp : s.pc t <;> simp only [hp, reduceCtorEq, Option.some.injEq] at hs <;> rw [hp] at ht <;> simp only [PcInv] at ht
  case new c =>
    subst hs
    obtain ⟨⟨g1, g2, g3, g4, g5, g6, g7⟩, a1, a2, a3, a4⟩ := h
    have hn : ∀ u i, (s.pc u).file = some i → i ≠ inoOf s.fresh := by
      intro u i hu
      have := a1 u
      revert hu this
      cases s.pc u <;> simp only [Pc.file, PcInv] <;> grind [inoOf_inj]
    have hn2 : ∀ w, s.ino w ≠ some (inoOf s.fresh) := by
      intro w hw
      obtain ⟨k, hk, hk'⟩ := g4 _ _ hw
      have := inoOf_inj hk'
      rw [this] at hk
      exact Nat.lt_irrefl _ hk
    refine ⟨?_, ?_, ?_, ?_, ?_⟩
    · ca_glob
    · ca_thr s t a1
    · ca_inj
    · ca_inj
    · ca_inj
  case made c i =>
    subst hs
    obtain ⟨⟨g1, g2, g3, g4, g5, g6, g7⟩, a1, a2, a3, a4⟩ := h
    refine ⟨?_, ?_, ?_, ?_, ?_⟩
    · ca_glob
    · ca_thr s t a1
    · intro j p hj
      simp only [upd] at hj
      by_cases hji : j = i
      · subst hji
        rw [if_pos rfl] at hj
        injection hj with hj
        exact .inr ⟨t, c, hj, .inl (upd_same _ _ _)⟩
      · rw [if_neg hji] at hj
        rcases a2 j p hj with h | ⟨u, d, hu, hu'⟩
        · exact .inl h
        · have hne : u ≠ t := by rintro rfl; rcases hu' with hu' | hu' <;> rw [hp] at hu' <;> cases hu'
          exact .inr ⟨u, d, hu, by simpa [upd, hne] using hu'⟩
    · ca_inj
    · ca_inj
  case locked c i =>
    subst hs
    obtain ⟨⟨g1, g2, g3, g4, g5, g6, g7⟩, a1, a2, a3, a4⟩ := h
    refine ⟨?_, ?_, ?_, ?_, ?_⟩
    · ca_glob
    · ca_thr s t a1
    · ca_inj
    · ca_inj
    · ca_inj
  case named c i =>
    subst hs
    have hL : ∀ q d, (upd s.list (ow t) (upd (s.list (ow t)) c (some i))) q d = if q = ow t ∧ d = c then some i else s.list q d := by
      intro q d
      simp only [upd]
      by_cases hq : q = ow t
      · subst hq
        by_cases hd' : d = c <;> simp [hd', upd]
      · simp [hq]
    generalize upd s.list (ow t) (upd (s.list (ow t)) c (some i)) = L at hL ⊢
    have hLt : L (ow t) c = some i := by rw [hL]; simp
    have hU := h.glob.uniq
    obtain ⟨⟨g1, g2, g3, g4, g5, g6, g7⟩, a1, a2, a3, a4⟩ := h
    refine ⟨?_, ?_, ?_, ?_, ?_⟩
    · ca_glob
    · ca_thr s t a1
    · ca_inj
    · ca_inj
    · ca_inj
  case joined c =>
    subst hs
    have := inv_pc h (t := t) (q := .idle) trivial rfl rfl (by simp [hp]) (by simp [hp])
    obtain ⟨⟨g1, g2, g3, g4, g5, g6, g7⟩, a1, a2, a3, a4⟩ := this
    refine ⟨⟨g1, g2, g3, g4, g5, g6, g7⟩, ?_, a2, a3, a4⟩
    intro u
    have hu := a1 u
    revert hu
    dsimp only
    cases upd s.pc t .idle u <;> exact id
  case removed c =>
    cases hpa : s.path c <;> simp only [hpa, Option.some.injEq] at hs <;> subst hs
    · exact inv_pc h trivial rfl rfl (by simp [hp]) (by simp [hp])
    obtain ⟨⟨g1, g2, g3, g4, g5, g6, g7⟩, a1, a2, a3, a4⟩ := h
    refine ⟨?_, ?_, ?_, ?_, ?_⟩
    · ca_glob
    · ca_thr s t a1
    · ca_inj
    · ca_inj
    · ca_inj
  case chk c g =>
    cases hl : s.list (ow t) c <;> simp only [hl, Option.some.injEq] at hs <;> subst hs
    · exact inv_pc h ⟨ht.1, hl, ht.2⟩ rfl rfl (by simp [hp]) (by simp [hp])
    · refine inv_pc h ⟨by simp, fun _ => ?_⟩ rfl rfl (by simp [hp]) (by simp [hp])
      have := h.glob.estL _ _ _ hl
      cases g <;> grind
  case notOwn c g =>
    cases hl : s.path c <;> simp only [hl, Option.some.injEq] at hs <;> subst hs
    · refine inv_pc h ⟨fun _ => ⟨ht.1, ?_⟩, by simp⟩ rfl rfl (by simp [hp]) (by simp [hp])
      cases he : s.est c
      · rfl
      · obtain ⟨p, i, hi⟩ := h.glob.estR _ he
        have := (h.glob.held _ _ _ hi).2.1
        simp_all
    · exact inv_pc h ⟨ht.1, ht.2.1, ht.2.2, h.glob.inoPath _ _ ht.1 hl⟩ rfl rfl (by simp [hp]) (by simp [hp])
  case opened c i g =>
    subst hs
    refine inv_pc h ⟨ht.1, ht.2.1, ?_, ?_, ht.2.2.2⟩ rfl rfl (by simp [hp]) (by simp [hp])
    · intro hf
      cases he : s.est c
      · rfl
      · obtain ⟨p, j, hi⟩ := h.glob.estR _ he
        have hh := h.glob.held _ _ _ hi
        have hj : j = i := by have := hh.2.2.2.2; rw [ht.2.2.2] at this; injection this with this; exact this.symm
        subst hj
        simp only [hh.2.2.1, Option.some.injEq, beq_iff_eq, Bool.or_eq_true, reduceCtorEq, false_or] at hf
        subst hf
        simp [ht.2.1] at hi
    · intro hf
      cases g
      · rfl
      exfalso
      simp only [Bool.or_eq_false_iff, beq_eq_false_iff_ne, ne_eq] at hf
      obtain ⟨p, hlk⟩ := Option.ne_none_iff_exists'.mp hf.1
      have hest := ht.2.2.1 rfl
      rcases h.locks _ _ hlk with ⟨c', hc'⟩ | ⟨u, c', hu, hu'⟩
      · have := (h.glob.held _ _ _ hc').2.2.2.2
        have hcc := h.glob.inoInj _ _ _ this ht.2.2.2
        subst hcc
        have := h.glob.estL _ _ _ hc'
        simp_all
      · have hx := h.thr u
        rcases hu' with hu' | hu' <;> rw [hu'] at hx <;> simp only [PcInv] at hx
        · exact hx.2.2.2.1 _ ht.2.2.2
        · have hcc := h.glob.inoInj _ _ _ hx.2.2.1 ht.2.2.2
          subst hcc
          simp_all
  case tested c i f g =>
    subst hs
    have hnl : s.lock i ≠ some (ow t) := by
      intro hlk
      rcases h.locks _ _ hlk with ⟨c', hc'⟩ | ⟨u, c', hu, hu'⟩
      · have := (h.glob.held _ _ _ hc').2.2.2.2
        have hcc := h.glob.inoInj _ _ _ this ht.2.2.2.2
        subst hcc
        simp_all
      · have hx := h.thr u
        rcases hu' with hu' | hu' <;> rw [hu'] at hx <;> simp only [PcInv] at hx
        · exact hx.2.2.2.1 _ ht.2.2.2.2
        · have hcc := h.glob.inoInj _ _ _ hx.2.2.1 ht.2.2.2.2
          subst hcc
          simp_all
    rw [if_neg hnl]
    cases f
    · exact inv_pc h ⟨by simp, fun _ => ht.2.2.2.1 rfl⟩ rfl rfl (by simp [hp]) (by simp [hp])
    · exact inv_pc h ⟨ht.1, ht.2.2.1 rfl⟩ rfl rfl (by simp [hp]) (by simp [hp])
  case unlinking c g =>
    subst hs
    obtain ⟨⟨g1, g2, g3, g4, g5, g6, g7⟩, a1, a2, a3, a4⟩ := h
    refine ⟨?_, ?_, ?_, ?_, ?_⟩
    · ca_glob
    · ca_thr s t a1
    · ca_inj
    · ca_inj
    · ca_inj
  case answer c b g =>
    subst hs
    exact inv_pc h trivial rfl rfl (by simp [hp]) (by simp [hp])

theorem inv_reach {ow : Tid → Pid} {old : Cid → Bool} {s : State} (h : Reach ow old Known s) : Inv ow s := by
  induction h with
  | start => exact inv_init _ _
  | next _ hA hs ih =>
    rename_i s1 e s2 _
    cases e with
    | connect t => exact inv_connect ih hs
    | disconnect t c => exact inv_disconnect ih hs
    | check t c => exact inv_check ih hA hs
    | run t ok => exact inv_run ih hs
    | crash p => exact inv_crash ih hs

end Verif.ConnAlive
