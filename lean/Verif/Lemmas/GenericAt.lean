import Verif.Model.GenericAt
namespace At
open AtSpec (Op Sys Ev upd Call opens meant forget)

theorem upd_same {α : Type} (f : Nat → α) (k : Nat) (v : α) : upd f k v k = v := if_pos rfl
theorem upd_ne {α : Type} (f : Nat → α) {k x : Nat} (v : α) (h : x ≠ k) : upd f k v x = f x := if_neg h

theorem inner_meant (op : Op) : inner op = meant op := by
  cases op <;> simp only [inner, meant] <;> split <;> rfl

theorem cleanup_opens (op : Op) (res : Int) : cleanupFd op res = if opens op = true ∧ 0 ≤ res then some res.toNat else none := by
  cases op <;> simp [cleanupFd, opens]

def heldRes (op : Op) (res : Int) : List Nat := (cleanupFd op res).toList

def held : Ph → List Nat
  | .fchdirTo _ _ c | .closeFail _ c | .func _ (some c) => [c]
  | .back op c res | .closeDot op c res _ => c :: heldRes op res
  | .unlock op res _ | .cleanup op res | .ret op res => heldRes op res
  | _ => []

def locked : Ph → Bool
  | .openDot _ _ | .fchdirTo _ _ _ | .closeFail _ _ | .unlockFail _ | .func _ _ | .back _ _ _ | .closeDot _ _ _ _ | .unlock _ _ _ => true
  | _ => false

/-- The call has its result. -/
def Fin (s : St) (σ : AtSpec.S) (t : Nat) (op : Op) (res : Int) : Prop :=
  (∃ dfd dir obj, σ.calls t = .done dfd op dir res obj ∧ ∀ fd ∈ heldRes op res, s.fds fd = some obj) ∨ (∃ dfd known, σ.calls t = .called dfd known op ∧ res = -1)

def Rel (s : St) (σ : AtSpec.S) (t : Nat) : Ph → Prop
  | .idle => σ.calls t = .idle
  | .enter dfd op => ∃ known, σ.calls t = .called dfd known op
  | .openDot d op => (∃ known, σ.calls t = .called (some d) known op) ∧ s.cwd = σ.cwd
  | .fchdirTo d op c => (∃ known, σ.calls t = .called (some d) known op) ∧ s.cwd = σ.cwd ∧ s.fds c = some σ.cwd
  | .closeFail op _ | .unlockFail op => (∃ d known, σ.calls t = .called d known op) ∧ s.cwd = σ.cwd
  | .func op none => (∃ known, σ.calls t = .called none known op ∧ known = none) ∧ s.cwd = σ.cwd
  | .func op (some c) => (∃ d known, σ.calls t = .called (some d) known op ∧ ∀ D ∈ known, s.cwd = D) ∧ s.fds c = some σ.cwd
  | .back op c res => s.fds c = some σ.cwd ∧
      ((∃ d obj, σ.calls t = .done (some d) op s.cwd res obj ∧ ∀ fd ∈ heldRes op res, s.fds fd = some obj) ∨
       (∃ d known, σ.calls t = .called (some d) known op ∧ meant op = none ∧ res = -1 ∧ ∀ D ∈ known, s.cwd = D))
  | .closeDot op _ res b | .unlock op res b => s.cwd = σ.cwd ∧ if b then Fin s σ t op res else σ.calls t = .lost
  | .cleanup _ _ => σ.calls t = .lost
  | .ret op r => Fin s σ t op r ∨ (σ.calls t = .lost ∧ r = -1)

structure Inv (σ0 : AtSpec.S) (s : St) (σ : AtSpec.S) : Prop where
  acc : AtSpec.run σ0 s.log = some σ
  lockd : ∀ t, locked (s.th t) = true ↔ s.lock = some t
  free : s.lock = none → s.cwd = σ.cwd
  rel : ∀ t, Rel s σ t (s.th t)
  known : ∀ t d D op, σ.calls t = .called (some d) (some D) op → σ.fds d = some D
  cknown : ∀ t D op, σ.calls t = .called none D op → D = none
  held1 : ∀ t, ∀ fd ∈ held (s.th t), (s.fds fd).isSome = true ∧ σ.fds fd = none
  disj : ∀ t u fd, fd ∈ held (s.th t) → fd ∈ held (s.th u) → t = u
  nodup : ∀ t, (held (s.th t)).Nodup
  cover : ∀ fd o, s.fds fd = some o → σ.fds fd = some o ∨ ∃ t, fd ∈ held (s.th t)
  user : ∀ fd o, σ.fds fd = some o → s.fds fd = some o

theorem Fin.frame {s s' : St} {σ σ' : AtSpec.S} {t : Nat} {op : Op} {res : Int} (h : Fin s σ t op res) (hc : σ'.calls t = σ.calls t)
    (hf : ∀ fd ∈ heldRes op res, s'.fds fd = s.fds fd) : Fin s' σ' t op res := by
  rcases h with ⟨dfd, dir, obj, h1, h2⟩ | ⟨dfd, kn, h1, h2⟩
  · exact .inl ⟨dfd, dir, obj, hc.trans h1, fun fd hfd => (hf fd hfd).trans (h2 fd hfd)⟩
  · exact .inr ⟨dfd, kn, hc.trans h1, h2⟩

theorem Rel.frame {s s' : St} {σ σ' : AtSpec.S} {t : Nat} {p : Ph} (h : Rel s σ t p) (hc : σ'.calls t = σ.calls t) (hf : ∀ fd ∈ held p, s'.fds fd = s.fds fd)
    (hw : locked p = true → s'.cwd = s.cwd ∧ σ'.cwd = σ.cwd) : Rel s' σ' t p := by
  cases p with
  | idle => exact hc.trans h
  | enter d op => obtain ⟨k, hk⟩ := h; exact ⟨k, hc.trans hk⟩
  | openDot d op => obtain ⟨w1, w2⟩ := hw rfl; obtain ⟨⟨k, hk⟩, h⟩ := h; exact ⟨⟨k, hc.trans hk⟩, by rw [w1, w2, h]⟩
  | fchdirTo d op c =>
    obtain ⟨w1, w2⟩ := hw rfl; obtain ⟨⟨k, hk⟩, h, h3⟩ := h
    exact ⟨⟨k, hc.trans hk⟩, by rw [w1, w2, h], by rw [hf c (by simp [held]), w2, h3]⟩
  | closeFail op c => obtain ⟨w1, w2⟩ := hw rfl; obtain ⟨⟨d, k, hk⟩, h⟩ := h; exact ⟨⟨d, k, hc.trans hk⟩, by rw [w1, w2, h]⟩
  | unlockFail op => obtain ⟨w1, w2⟩ := hw rfl; obtain ⟨⟨d, k, hk⟩, h⟩ := h; exact ⟨⟨d, k, hc.trans hk⟩, by rw [w1, w2, h]⟩
  | func op c =>
    obtain ⟨w1, w2⟩ := hw rfl
    cases c with
    | none => obtain ⟨⟨k, hk, hk'⟩, h⟩ := h; exact ⟨⟨k, hc.trans hk, hk'⟩, by rw [w1, w2, h]⟩
    | some c => obtain ⟨⟨d, k, hk, hk'⟩, h⟩ := h; exact ⟨⟨d, k, hc.trans hk, by rw [w1]; exact hk'⟩, by rw [hf c (by simp [held]), w2, h]⟩
  | back op c res =>
    obtain ⟨w1, w2⟩ := hw rfl
    obtain ⟨h1, h2⟩ := h
    refine ⟨by rw [hf c (by simp [held]), w2, h1], ?_⟩
    rcases h2 with ⟨d, obj, h2, h3⟩ | ⟨d, k, h2, h3, h4, h5⟩
    · exact .inl ⟨d, obj, by rw [hc, w1, h2], fun fd hfd => (hf fd (by simp [held, hfd])).trans (h3 fd hfd)⟩
    · exact .inr ⟨d, k, hc.trans h2, h3, h4, by rw [w1]; exact h5⟩
  | closeDot op c res b =>
    obtain ⟨w1, w2⟩ := hw rfl
    obtain ⟨h1, h2⟩ := h
    refine ⟨by rw [w1, w2, h1], ?_⟩
    cases b with
    | true => exact Fin.frame h2 hc fun fd hfd => hf fd (by simp [held, hfd])
    | false => exact hc.trans h2
  | unlock op res b =>
    obtain ⟨w1, w2⟩ := hw rfl
    obtain ⟨h1, h2⟩ := h
    refine ⟨by rw [w1, w2, h1], ?_⟩
    cases b with
    | true => exact Fin.frame h2 hc fun fd hfd => hf fd (by simp [held, hfd])
    | false => exact hc.trans h2
  | cleanup op res => exact hc.trans h
  | ret op r =>
    rcases h with h | ⟨h1, h2⟩
    · exact .inl (Fin.frame h hc fun fd hfd => hf fd (by simp [held, hfd]))
    · exact .inr ⟨hc.trans h1, h2⟩

/-- A step of one thread keeps the invariant. -/
theorem inv_thread {σ0 : AtSpec.S} {s s' : St} {σ σ' : AtSpec.S} (inv : Inv σ0 s σ) {t : Nat} {p : Ph} (p' : Ph) (hp : s.th t = p)
    (hacc : AtSpec.run σ0 s'.log = some σ') (hth : s'.th = upd s.th t p')
    (hl : s'.lock = if locked p' then some t else if locked p then none else s.lock) (hl2 : locked p' = true → locked p = true ∨ s.lock = none)
    (hfree : s'.lock = none → s'.cwd = σ'.cwd) (hcwd : locked p = false → s.lock ≠ none → s'.cwd = s.cwd ∧ σ'.cwd = σ.cwd)
    (hcalls : ∀ u, u ≠ t → σ'.calls u = σ.calls u) (hrel : Rel s' σ' t p')
    (hkn : ∀ d D op, σ'.calls t = .called (some d) (some D) op → σ'.fds d = some D) (hkn' : ∀ D op, σ'.calls t = .called none D op → D = none)
    (hag : ∀ fd, fd ∉ held p → fd ∉ held p' → s'.fds fd = s.fds fd ∧ σ'.fds fd = σ.fds fd)
    (hnew : ∀ fd ∈ held p', (s'.fds fd).isSome = true ∧ σ'.fds fd = none) (hfresh : ∀ fd ∈ held p', fd ∈ held p ∨ s.fds fd = none)
    (hold : ∀ fd ∈ held p, fd ∉ held p' → (s'.fds fd = none ∧ σ'.fds fd = none) ∨ (∃ o, s'.fds fd = some o ∧ σ'.fds fd = some o))
    (hnd : (held p').Nodup) : Inv σ0 s' σ' := by
  subst hp
  have other : ∀ u, u ≠ t → s'.th u = s.th u := fun u hu => by rw [hth, upd_ne _ _ hu]
  have self : s'.th t = p' := by rw [hth, upd_same]
  have hout : ∀ u, u ≠ t → ∀ fd ∈ held (s.th u), s'.fds fd = s.fds fd ∧ σ'.fds fd = σ.fds fd := by
    intro u hu fd hfd
    refine hag fd (fun h => hu (inv.disj u t fd hfd h)) (fun h => ?_)
    rcases hfresh fd h with h | h
    · exact hu (inv.disj u t fd hfd h)
    · have := (inv.held1 u fd hfd).1; rw [h] at this; cases this
  have huser : ∀ fd o, σ.fds fd = some o → s'.fds fd = some o ∧ σ'.fds fd = some o := by
    intro fd o h
    have h1 : fd ∉ held (s.th t) := fun hh => by have := (inv.held1 t fd hh).2; rw [h] at this; cases this
    have h2 : fd ∉ held p' := fun hh => by
      rcases hfresh fd hh with h3 | h3
      · exact h1 h3
      · rw [inv.user fd o h] at h3; cases h3
    obtain ⟨h3, h4⟩ := hag fd h1 h2
    exact ⟨h3.trans (inv.user fd o h), h4.trans h⟩
  refine ⟨hacc, ?_, hfree, ?_, ?_, ?_, ?_, ?_, ?_, ?_, ?_⟩
  · intro u
    by_cases hu : u = t
    · subst hu
      rw [self, hl]
      cases h1 : locked p' with
      | true => simp
      | false =>
        simp only [Bool.false_eq_true, if_false, false_iff]
        cases h2 : locked (s.th u) with
        | true => simp
        | false => simp only [Bool.false_eq_true, if_false]; intro h; rw [← inv.lockd u, h2] at h; cases h
    · rw [other u hu, inv.lockd u, hl]
      cases h1 : locked p' with
      | true =>
        simp only [if_true]
        have : s.lock ≠ some u := by
          rcases hl2 h1 with h | h
          · rw [(inv.lockd t).1 h]; simp; exact fun h => hu h.symm
          · rw [h]; simp
        constructor
        · intro h; exact absurd h this
        · intro h; exact absurd (Option.some.inj h).symm hu
      | false =>
        simp only [Bool.false_eq_true, if_false]
        cases h2 : locked (s.th t) with
        | true =>
          simp only [if_true]
          rw [(inv.lockd t).1 h2]; simp; exact fun h => hu h.symm
        | false => simp
  · intro u
    by_cases hu : u = t
    · subst hu; rw [self]; exact hrel
    · rw [other u hu]
      refine (inv.rel u).frame (hcalls u hu) (fun fd hfd => (hout u hu fd hfd).1) fun h => ?_
      refine hcwd ?_ ?_
      · cases h2 : locked (s.th t) with
        | false => rfl
        | true => have := (inv.lockd u).1 h; rw [(inv.lockd t).1 h2] at this; exact absurd (Option.some.inj this).symm hu
      · rw [(inv.lockd u).1 h]; simp
  · intro u d D op h
    by_cases hu : u = t
    · subst hu; exact hkn d D op h
    · rw [hcalls u hu] at h; exact (huser d D (inv.known u d D op h)).2
  · intro u D op h
    by_cases hu : u = t
    · subst hu; exact hkn' D op h
    · rw [hcalls u hu] at h; exact inv.cknown u D op h
  · intro u fd hfd
    by_cases hu : u = t
    · subst hu; rw [self] at hfd; exact hnew fd hfd
    · rw [other u hu] at hfd
      obtain ⟨h1, h2⟩ := hout u hu fd hfd
      rw [h1, h2]; exact inv.held1 u fd hfd
  · have key : ∀ u fd, u ≠ t → fd ∈ held p' → fd ∈ held (s.th u) → False := by
      intro u fd hu h1 h2
      rcases hfresh fd h1 with h | h
      · exact hu (inv.disj u t fd h2 h)
      · have := (inv.held1 u fd h2).1; rw [h] at this; cases this
    intro u v fd h1 h2
    by_cases hu : u = t
    · by_cases hv : v = t
      · rw [hu, hv]
      · subst hu; rw [self] at h1; rw [other v hv] at h2; exact (key v fd hv h1 h2).elim
    · by_cases hv : v = t
      · subst hv; rw [self] at h2; rw [other u hu] at h1; exact (key u fd hu h2 h1).elim
      · rw [other u hu] at h1; rw [other v hv] at h2; exact inv.disj u v fd h1 h2
  · intro u
    by_cases hu : u = t
    · subst hu; rw [self]; exact hnd
    · rw [other u hu]; exact inv.nodup u
  · intro fd o h
    by_cases h1 : fd ∈ held p'
    · exact .inr ⟨t, by rw [self]; exact h1⟩
    · by_cases h2 : fd ∈ held (s.th t)
      · rcases hold fd h2 h1 with ⟨h3, _⟩ | ⟨o', h3, h4⟩
        · rw [h] at h3; cases h3
        · rw [h] at h3; cases h3; exact .inl h4
      · obtain ⟨h3, h4⟩ := hag fd h2 h1
        rw [h3] at h
        rcases inv.cover fd o h with h5 | ⟨u, h5⟩
        · exact .inl (h4.trans h5)
        · have hu : u ≠ t := fun hh => h2 (hh ▸ h5)
          exact .inr ⟨u, by rw [other u hu]; exact h5⟩
  · intro fd o h
    by_cases h1 : fd ∈ held p'
    · rw [(hnew fd h1).2] at h; cases h
    · by_cases h2 : fd ∈ held (s.th t)
      · rcases hold fd h2 h1 with ⟨_, h4⟩ | ⟨o', h3, h4⟩
        · rw [h] at h4; cases h4
        · rw [h] at h4; cases h4; exact h3
      · obtain ⟨h3, h4⟩ := hag fd h2 h1
        rw [h4] at h
        rw [h3]; exact inv.user fd o h

theorem run_snoc {σ0 σ : AtSpec.S} : ∀ {log : List Ev} {e : Ev}, AtSpec.run σ0 log = some σ → AtSpec.run σ0 (log ++ [e]) = AtSpec.step σ e := by
  intro log
  induction log generalizing σ0 with
  | nil => intro e h; simp only [AtSpec.run, Option.some.injEq] at h; subst h; simp only [List.nil_append, AtSpec.run]; cases AtSpec.step σ0 e <;> rfl
  | cons x xs ih =>
    intro e h
    simp only [AtSpec.run, List.cons_append] at h ⊢
    cases h1 : AtSpec.step σ0 x with
    | none => rw [h1] at h; cases h
    | some s => rw [h1] at h; exact ih h

/-- A step without any effect on descriptors of the program or on the events. -/
theorem inv_quiet {σ0 : AtSpec.S} {s s' : St} {σ : AtSpec.S} (inv : Inv σ0 s σ) {t : Nat} {p : Ph} (p' : Ph) (hp : s.th t = p)
    (hlog : s'.log = s.log) (hth : s'.th = upd s.th t p')
    (hl : s'.lock = if locked p' then some t else if locked p then none else s.lock) (hl2 : locked p' = true → locked p = true ∨ s.lock = none)
    (hfree : s'.lock = none → s'.cwd = σ.cwd) (hcwd : locked p = false → s.lock ≠ none → s'.cwd = s.cwd) (hrel : Rel s' σ t p')
    (hag : ∀ fd, fd ∉ held p → fd ∉ held p' → s'.fds fd = s.fds fd)
    (hnew : ∀ fd ∈ held p', (s'.fds fd).isSome = true) (hfresh : ∀ fd ∈ held p', fd ∈ held p ∨ s.fds fd = none)
    (hold : ∀ fd ∈ held p, fd ∉ held p' → s'.fds fd = none) (hnd : (held p').Nodup) : Inv σ0 s' σ := by
  refine inv_thread inv p' hp (by rw [hlog]; exact inv.acc) hth hl hl2 hfree (fun h1 h2 => ⟨hcwd h1 h2, rfl⟩) (fun _ _ => rfl) hrel (inv.known t) (inv.cknown t)
    (fun fd h1 h2 => ⟨hag fd h1 h2, rfl⟩) (fun fd h => ⟨hnew fd h, ?_⟩) hfresh (fun fd h1 h2 => .inl ⟨hold fd h1 h2, (inv.held1 t fd (hp ▸ h1)).2⟩) hnd
  rcases hfresh fd h with h1 | h1
  · exact (inv.held1 t fd (hp ▸ h1)).2
  · cases h2 : σ.fds fd with
    | none => rfl
    | some o => rw [inv.user fd o h2] at h1; cases h1

theorem inv_go {σ0 : AtSpec.S} {s s' : St} {σ : AtSpec.S} (inv : Inv σ0 s σ) {t : Nat} {ok : Bool} {n obj : Nat} {p : Ph} (hp : s.th t = p) (h : go s t ok n obj p = some s') :
    ∃ σ', Inv σ0 s' σ' := by
  have hr := inv.rel t
  rw [hp] at hr
  have hh1 := fun fd (h : fd ∈ held p) => inv.held1 t fd (hp ▸ h)
  have hlk : locked p = true → s.lock = some t := fun h => (inv.lockd t).1 (hp ▸ h)
  cases p with
  | idle => cases h
  | enter dfd op =>
    simp only [go] at h
    split at h
    · rename_i hl
      obtain ⟨k, hk⟩ := hr
      cases dfd with
      | some d =>
        cases h
        exact ⟨σ, inv_quiet inv (.openDot d op) hp rfl rfl rfl (fun _ => .inr hl) (fun h => by cases h) (fun _ h => absurd hl h) ⟨⟨k, hk⟩, inv.free hl⟩
          (fun _ _ _ => rfl) (fun _ h => by cases h) (fun _ h => by cases h) (fun _ h => by cases h) .nil⟩
      | none =>
        cases h
        exact ⟨σ, inv_quiet inv (.func op none) hp rfl rfl rfl (fun _ => .inr hl) (fun h => by cases h) (fun _ h => absurd hl h) ⟨⟨k, hk, inv.cknown t k op hk⟩, inv.free hl⟩
          (fun _ _ _ => rfl) (fun _ h => by cases h) (fun _ h => by cases h) (fun _ h => by cases h) .nil⟩
    · cases h
  | openDot d op =>
    simp only [go] at h
    have hl := hlk rfl
    split at h
    · split at h
      · rename_i hn
        cases h
        refine ⟨σ, inv_quiet inv (.fchdirTo d op n) hp rfl rfl hl (fun _ => .inl rfl) (fun h => by have := hl.symm.trans h; cases this) (fun h => by cases h) ⟨hr.1, hr.2, ?_⟩
          (fun fd _ h2 => ?_) (fun fd h => ?_) (fun fd h => ?_) (fun _ h => by cases h) (by simp [held])⟩
        · show upd s.fds n (some s.cwd) n = _; rw [upd_same, hr.2]
        · exact upd_ne _ _ (by simpa [held] using h2)
        · simp only [held, List.mem_singleton] at h; subst h; show (upd s.fds fd (some s.cwd) fd).isSome = true; rw [upd_same]; rfl
        · simp only [held, List.mem_singleton] at h; subst h; exact .inr hn
      · cases h
    · cases h
      exact ⟨σ, inv_quiet inv (.unlockFail op) hp rfl rfl hl (fun _ => .inl rfl) (fun h => by have := hl.symm.trans h; cases this) (fun h => by cases h) ⟨⟨_, hr.1⟩, hr.2⟩
        (fun _ _ _ => rfl) (fun _ h => by cases h) (fun _ h => by cases h) (fun _ h => by cases h) .nil⟩
  | fchdirTo d op c =>
    simp only [go] at h
    have hl := hlk rfl
    obtain ⟨⟨k, hk⟩, hr2, hr3⟩ := hr
    split at h
    · split at h
      · rename_i o ho
        cases h
        refine ⟨σ, inv_quiet inv (.func op (some c)) hp rfl rfl hl (fun _ => .inl rfl) (fun h => by have := hl.symm.trans h; cases this) (fun h => by cases h)
          ⟨⟨d, k, hk, fun D hD => ?_⟩, hr3⟩ (fun _ _ _ => rfl) (fun fd h => (hh1 fd h).1) (fun _ h => .inl h) (fun _ h h' => absurd h h') (by simp [held])⟩
        have : k = some D := hD
        subst this
        have h2 := inv.user d D (inv.known t d D op hk)
        rw [ho] at h2
        exact Option.some.inj h2
      · cases h
    · cases h
      exact ⟨σ, inv_quiet inv (.closeFail op c) hp rfl rfl hl (fun _ => .inl rfl) (fun h => by have := hl.symm.trans h; cases this) (fun h => by cases h) ⟨⟨_, _, hk⟩, hr2⟩
        (fun _ _ _ => rfl) (fun fd h => (hh1 fd h).1) (fun _ h => .inl h) (fun _ h h' => absurd h h') (by simp [held])⟩
  | closeFail op c =>
    simp only [go] at h
    have hl := hlk rfl
    cases h
    refine ⟨σ, inv_quiet inv (.unlockFail op) hp rfl rfl hl (fun _ => .inl rfl) (fun h => by have := hl.symm.trans h; cases this) (fun h => by cases h) hr
        (fun fd h _ => ?_) (fun _ h => by cases h) (fun _ h => by cases h) (fun fd h _ => ?_) .nil⟩
    · exact upd_ne _ _ (by simpa [held] using h)
    · simp only [held, List.mem_singleton] at h; subst h; exact upd_same _ _ _
  | unlockFail op =>
    simp only [go] at h
    cases h
    obtain ⟨⟨d, k, hk⟩, hr2⟩ := hr
    exact ⟨σ, inv_quiet inv (.ret op (-1)) hp rfl rfl rfl (fun h => by cases h) (fun _ => hr2) (fun h => by cases h) (.inl (.inr ⟨d, k, hk, rfl⟩))
        (fun _ _ _ => rfl) (fun _ h => by simp [held, heldRes, cleanup_opens] at h) (fun _ h => by simp [held, heldRes, cleanup_opens] at h) (fun _ h => by cases h) (by simp [held, heldRes, cleanup_opens])⟩
  | func op saved =>
    have hl := hlk rfl
    simp only [go] at h
    -- the spec's state after the event
    have key : ∀ s1 res, perform s t op ok n obj = some (s1, res) → s1.th = s.th ∧ s1.lock = s.lock ∧ s1.cwd = s.cwd ∧
        ∃ σ1, AtSpec.run σ0 s1.log = some σ1 ∧ σ1.cwd = σ.cwd ∧ σ1.fds = σ.fds ∧ (∀ u, u ≠ t → σ1.calls u = σ.calls u) ∧
        ((∃ dfd known, σ.calls t = .called dfd known op ∧ σ1.calls t = .done dfd op s.cwd res obj) ∨ (σ1.calls t = σ.calls t ∧ meant op = none ∧ res = -1)) ∧
        (∀ fd, fd ∉ heldRes op res → s1.fds fd = s.fds fd) ∧ (∀ fd ∈ heldRes op res, s1.fds fd = some obj ∧ s.fds fd = none) := by
      intro s1 res hpf
      have hcall : ∃ dfd known, σ.calls t = .called dfd known op ∧ (dfd = none → s.cwd = σ.cwd) ∧ (∀ D ∈ known, s.cwd = D) := by
        cases saved with
        | none => obtain ⟨⟨k, hk, hk'⟩, h2⟩ := hr; exact ⟨none, k, hk, fun _ => h2, fun D hD => by rw [hk'] at hD; cases hD⟩
        | some c => obtain ⟨⟨d, k, hk, hk'⟩, _⟩ := hr; exact ⟨some d, k, hk, (fun h => nomatch h), hk'⟩
      obtain ⟨dfd, known, hc, hc1, hc2⟩ := hcall
      have hstep : ∀ sys res, inner op = some sys → -1 ≤ res → (opens op = true → 0 ≤ res → σ.fds res.toNat = none) →
          AtSpec.step σ (.did t s.cwd sys res obj) = some { σ with calls := upd σ.calls t (.done dfd op s.cwd res obj) } := by
        intro sys res h1 h2 h3
        simp only [AtSpec.step, hc]
        rw [if_pos ⟨by rw [← inner_meant, h1], hc1, hc2, h2, h3⟩]
      have done : ∀ sys res (f : Nat → Option Nat), inner op = some sys → -1 ≤ res → (opens op = true → 0 ≤ res → σ.fds res.toNat = none) →
          (∀ fd, fd ∉ heldRes op res → f fd = s.fds fd) → (∀ fd ∈ heldRes op res, f fd = some obj ∧ s.fds fd = none) →
          ({ s with fds := f }).say (.did t s.cwd sys res obj) = s1 → 
          s1.th = s.th ∧ s1.lock = s.lock ∧ s1.cwd = s.cwd ∧
          ∃ σ1, AtSpec.run σ0 s1.log = some σ1 ∧ σ1.cwd = σ.cwd ∧ σ1.fds = σ.fds ∧ (∀ u, u ≠ t → σ1.calls u = σ.calls u) ∧
          ((∃ dfd known, σ.calls t = .called dfd known op ∧ σ1.calls t = .done dfd op s.cwd res obj) ∨ (σ1.calls t = σ.calls t ∧ meant op = none ∧ res = -1)) ∧
          (∀ fd, fd ∉ heldRes op res → s1.fds fd = s.fds fd) ∧ (∀ fd ∈ heldRes op res, s1.fds fd = some obj ∧ s.fds fd = none) := by
        intro sys res f h1 h2 h3 h4 h5 h6
        subst h6
        exact ⟨rfl, rfl, rfl, _, (run_snoc inv.acc).trans (hstep sys res h1 h2 h3), rfl, rfl, fun u hu => upd_ne _ _ hu, .inl ⟨dfd, known, hc, upd_same _ _ _⟩, h4, h5⟩
      unfold perform at hpf
      cases hi : inner op with
      | none =>
        simp only [hi, Option.some.injEq, Prod.mk.injEq] at hpf
        obtain ⟨rfl, rfl⟩ := hpf
        exact ⟨rfl, rfl, rfl, σ, inv.acc, rfl, rfl, fun _ _ => rfl, .inr ⟨rfl, by rw [← inner_meant, hi], rfl⟩, fun _ _ => rfl, fun fd h => by simp [heldRes, cleanup_opens] at h⟩
      | some sys =>
        simp only [hi] at hpf
        by_cases hok : ok = true
        · rw [if_pos hok] at hpf
          have hopen : (∃ a b c, sys = .open a b c) ∨ opens op = false := by
            cases op with
            | openat p c f m => simp only [inner, Option.some.injEq] at hi; exact .inl ⟨_, _, _, hi.symm⟩
            | _ => exact .inr rfl
          have hno : opens op = false → (∃ a b c, sys = .open a b c) → False := by
            intro h1 ⟨a, b, c, h2⟩
            subst h2
            cases op <;> simp only [inner, opens, reduceCtorEq] at hi h1 <;> (first | cases hi | (split at hi <;> cases hi))
          rcases hopen with ⟨a, b, c, rfl⟩ | hop
          · simp only at hpf
            split at hpf
            · rename_i hn
              simp only [Option.some.injEq, Prod.mk.injEq] at hpf
              obtain ⟨h1, rfl⟩ := hpf
              have hop : opens op = true := by
                cases ho : opens op with
                | true => rfl
                | false => exact (hno ho ⟨a, b, c, rfl⟩).elim
              have hheld : heldRes op (n : Int) = [n] := by simp [heldRes, cleanup_opens, hop]
              refine done _ _ (upd s.fds n (some obj)) hi (by omega) (fun _ _ => ?_) (fun fd hfd => ?_) (fun fd hfd => ?_) h1
              · rw [Int.toNat_natCast]
                cases h2 : σ.fds n with
                | none => rfl
                | some o => rw [inv.user n o h2] at hn; cases hn
              · rw [hheld] at hfd; exact upd_ne _ _ (by simpa using hfd)
              · rw [hheld, List.mem_singleton] at hfd; subst hfd; exact ⟨upd_same _ _ _, hn⟩
            · cases hpf
          · have hheld : ∀ r, heldRes op r = [] := by intro r; simp [heldRes, cleanup_opens, hop]
            have : some (s.say (.did t s.cwd sys n obj), (n : Int)) = some (s1, res) := by
              cases sys with
              | «open» a b c => exact (hno hop ⟨a, b, c, rfl⟩).elim
              | _ => exact hpf
            simp only [Option.some.injEq, Prod.mk.injEq] at this
            obtain ⟨h1, rfl⟩ := this
            exact done _ _ s.fds hi (by omega) (fun h => by rw [hop] at h; cases h) (fun _ _ => rfl) (fun fd hfd => by rw [hheld] at hfd; cases hfd) h1
        · rw [if_neg hok] at hpf
          simp only [Option.some.injEq, Prod.mk.injEq] at hpf
          obtain ⟨h1, rfl⟩ := hpf
          exact done _ _ s.fds hi (by omega) (fun _ h => by omega) (fun _ _ => rfl) (fun fd hfd => by simp [heldRes, cleanup_opens] at hfd) h1
    cases hpf : perform s t op ok n obj with
    | none => rw [hpf] at h; cases h
    | some r =>
      obtain ⟨s1, res⟩ := r
      rw [hpf] at h
      simp only [Option.bind_some] at h
      obtain ⟨e1, e2, e3, σ1, f1, f2, f3, f4, f5, g1, g2⟩ := key s1 res hpf
      have hkn : ∀ d D op', σ1.calls t = .called (some d) (some D) op' → σ1.fds d = some D := by
        intro d D op' h
        rcases f5 with ⟨_, _, _, h2⟩ | ⟨h2, _⟩
        · rw [h2] at h; cases h
        · rw [h2] at h; rw [f3]; exact inv.known t d D op' h
      have hkn' : ∀ D op', σ1.calls t = .called none D op' → D = none := by
        intro D op' h
        rcases f5 with ⟨_, _, _, h2⟩ | ⟨h2, _⟩
        · rw [h2] at h; cases h
        · rw [h2] at h; exact inv.cknown t D op' h
      have hsn : ∀ fd ∈ heldRes op res, (s1.fds fd).isSome = true ∧ σ1.fds fd = none := by
        intro fd hfd
        obtain ⟨h1, h2⟩ := g2 fd hfd
        refine ⟨by rw [h1]; rfl, ?_⟩
        rw [f3]
        cases h3 : σ.fds fd with
        | none => rfl
        | some o => rw [inv.user fd o h3] at h2; cases h2
      have hnd : (heldRes op res).Nodup := by
        unfold heldRes; cases cleanupFd op res <;> simp
      cases saved with
      | none =>
        cases h
        obtain ⟨⟨k, hk, hk'⟩, hw⟩ := hr
        refine ⟨σ1, inv_thread inv (.unlock op res true) hp f1 (by show upd s1.th t _ = _; rw [e1]) (by show s1.lock = _; rw [e2, hl]; rfl) (fun _ => .inl rfl)
          (fun h => by have := (e2.trans hl).symm.trans h; cases this) (fun h => by cases h) f4 ⟨by rw [f2, ← hw]; exact e3, ?_⟩ hkn hkn'
          (fun fd _ h2 => ⟨g1 fd h2, by rw [f3]⟩) hsn (fun fd h => .inr (g2 fd h).2) (fun _ h => by cases h) hnd⟩
        rcases f5 with ⟨dfd, known, h1, h2⟩ | ⟨h1, h2, h3⟩
        · exact .inl ⟨dfd, _, obj, h2, fun fd hfd => (g2 fd hfd).1⟩
        · exact .inr ⟨none, k, h1.trans hk, h3⟩
      | some c =>
        cases h
        obtain ⟨⟨d, k, hk, hk'⟩, hc⟩ := hr
        have hcn : c ∉ heldRes op res := fun h => by have := (g2 c h).2; rw [hc] at this; cases this
        refine ⟨σ1, inv_thread inv (.back op c res) hp f1 (by show upd s1.th t _ = _; rw [e1]) (by show s1.lock = _; rw [e2, hl]; rfl) (fun _ => .inl rfl)
          (fun h => by have := (e2.trans hl).symm.trans h; cases this) (fun h => by cases h) f4 ⟨by rw [f2]; exact (g1 c hcn).trans hc, ?_⟩ hkn hkn'
          (fun fd _ h2 => ⟨g1 fd (fun h => h2 (by simp [held, h])), by rw [f3]⟩) (fun fd h => ?_) (fun fd h => ?_) (fun fd h h' => ?_) (by simp [held, hcn, hnd])⟩
        · rcases f5 with ⟨dfd, known, h1, h2⟩ | ⟨h1, h2, h3⟩
          · rw [hk] at h1; cases h1
            exact .inl ⟨d, obj, by rw [h2]; show _ = Call.done (some d) op s1.cwd res obj; rw [e3], fun fd hfd => (g2 fd hfd).1⟩
          · exact .inr ⟨d, k, h1.trans hk, h2, h3, fun D hD => by show s1.cwd = D; rw [e3]; exact hk' D hD⟩
        · simp only [held, List.mem_cons] at h
          rcases h with rfl | h
          · show (s1.fds fd).isSome = true ∧ _
            rw [g1 fd hcn, hc, f3]; exact ⟨rfl, (hh1 fd (by simp [held])).2⟩
          · exact hsn fd h
        · simp only [held, List.mem_cons] at h
          rcases h with rfl | h
          · exact .inl (by simp [held])
          · exact .inr (g2 fd h).2
        · simp only [held, List.mem_cons, List.not_mem_nil, or_false] at h h'; exact absurd (.inl h) h'
  | back op c res =>
    have hl := hlk rfl
    simp only [go] at h
    obtain ⟨hc, hr2⟩ := hr
    have hnd := inv.nodup t
    rw [hp] at hnd
    split at h
    · rw [hc] at h
      cases h
      refine ⟨σ, inv_quiet inv (.closeDot op c res true) hp rfl rfl hl (fun _ => .inl rfl) (fun h => by have := hl.symm.trans h; cases this) (fun h => by cases h)
          ⟨rfl, ?_⟩ (fun _ _ _ => rfl) (fun fd h => (hh1 fd h).1) (fun _ h => .inl h) (fun _ h h' => absurd h h') hnd⟩
      rcases hr2 with ⟨d, obj', h1, h2⟩ | ⟨d, k, h1, h2, h3, h4⟩
      · exact .inl ⟨some d, _, obj', h1, h2⟩
      · exact .inr ⟨some d, k, h1, h3⟩
    · cases h
      have hstep : AtSpec.step σ (.stuck t s.cwd) = some { σ with cwd := s.cwd, calls := upd σ.calls t .lost } := by
        rcases hr2 with ⟨d, obj', h1, h2⟩ | ⟨d, k, h1, h2, h3, h4⟩
        · simp only [AtSpec.step, h1, if_true]
        · simp only [AtSpec.step, h1]; rw [if_pos ⟨h2, h4⟩]
      refine ⟨_, inv_thread inv (.closeDot op c res false) hp ((run_snoc inv.acc).trans hstep) rfl hl (fun _ => .inl rfl) (fun h => by have := hl.symm.trans h; cases this) (fun h => by cases h)
        (fun u hu => upd_ne _ _ hu) ⟨rfl, upd_same _ _ _⟩ (fun d D op' h => ?_) (fun D op' h => ?_) (fun _ _ _ => ⟨rfl, rfl⟩) hh1 (fun _ h => .inl h) (fun _ h h' => absurd h h') hnd⟩
      · simp only [upd_same, reduceCtorEq] at h
      · simp only [upd_same, reduceCtorEq] at h
  | closeDot op c res b =>
    have hl := hlk rfl
    simp only [go] at h
    cases h
    have hnd := inv.nodup t
    rw [hp] at hnd
    simp only [held, List.nodup_cons] at hnd
    have hout : ∀ fd ∈ heldRes op res, upd s.fds c none fd = s.fds fd := fun fd hfd => upd_ne _ _ (fun h => hnd.1 (h ▸ hfd))
    refine ⟨σ, inv_quiet inv (.unlock op res b) hp rfl rfl hl (fun _ => .inl rfl) (fun h => by have := hl.symm.trans h; cases this) (fun h => by cases h)
        ⟨hr.1, ?_⟩ (fun fd h _ => upd_ne _ _ (fun hh => h (by simp [held, hh]))) (fun fd h => ?_) (fun _ h => .inl (by simp only [held, List.mem_cons]; exact .inr h)) (fun fd h h' => ?_) hnd.2⟩
    · cases b with
      | true => exact Fin.frame (s := s) hr.2 rfl hout
      | false => exact hr.2
    · show (upd s.fds c none fd).isSome = true
      rw [hout fd h]; exact (hh1 fd (by simp only [held, List.mem_cons]; exact .inr h)).1
    · simp only [held, List.mem_cons] at h h'
      rcases h with rfl | h
      · exact upd_same _ _ _
      · exact absurd h h'
  | unlock op res b =>
    have hnd := inv.nodup t
    rw [hp] at hnd
    simp only [go] at h
    cases h
    cases b with
    | true =>
      exact ⟨σ, inv_quiet inv (.ret op res) hp rfl rfl rfl (fun h => by cases h) (fun _ => hr.1) (fun h => by cases h) (.inl hr.2)
        (fun _ _ _ => rfl) (fun fd h => (hh1 fd h).1) (fun _ h => .inl h) (fun _ h h' => absurd h h') hnd⟩
    | false =>
      exact ⟨σ, inv_quiet inv (.cleanup op res) hp rfl rfl rfl (fun h => by cases h) (fun _ => hr.1) (fun h => by cases h) hr.2
        (fun _ _ _ => rfl) (fun fd h => (hh1 fd h).1) (fun _ h => .inl h) (fun _ h h' => absurd h h') hnd⟩
  | cleanup op res =>
    simp only [go] at h
    have hm1 : held (.ret op (-1)) = [] := by simp [held, heldRes, cleanup_opens]
    cases hc : cleanupFd op res with
    | none =>
      rw [hc] at h
      cases h
      refine ⟨σ, inv_quiet inv (.ret op (-1)) hp rfl rfl rfl (fun h => by cases h) inv.free (fun _ _ => rfl) (.inr ⟨hr, rfl⟩)
        (fun _ _ _ => rfl) (fun fd h => by rw [hm1] at h; cases h) (fun fd h => by rw [hm1] at h; cases h) (fun fd h _ => ?_) (by rw [hm1]; exact .nil)⟩
      simp [held, heldRes, hc] at h
    | some fd0 =>
      rw [hc] at h
      cases h
      refine ⟨σ, inv_quiet inv (.ret op (-1)) hp rfl rfl rfl (fun h => by cases h) inv.free (fun _ _ => rfl) (.inr ⟨hr, rfl⟩)
        (fun fd h _ => ?_) (fun fd h => by rw [hm1] at h; cases h) (fun fd h => by rw [hm1] at h; cases h) (fun fd h _ => ?_) (by rw [hm1]; exact .nil)⟩
      · exact upd_ne _ _ (by simpa [held, heldRes, hc] using h)
      · simp only [held, heldRes, hc, Option.toList_some, List.mem_singleton] at h
        subst h; exact upd_same _ _ _
  | ret op r =>
    simp only [go] at h
    cases h
    have hfin : ∀ σ', AtSpec.step σ (.ret t r) = some σ' → σ'.cwd = σ.cwd → (∀ u, u ≠ t → σ'.calls u = σ.calls u) → σ'.calls t = .idle →
        (∀ fd, fd ∉ heldRes op r → σ'.fds fd = σ.fds fd) → (∀ fd ∈ heldRes op r, ∃ o, s.fds fd = some o ∧ σ'.fds fd = some o) → ∃ σ', Inv σ0 ((s.set t .idle).say (.ret t r)) σ' := by
      intro σ' h1 h2 h3 h4 h5 h6
      refine ⟨σ', inv_thread inv .idle hp ((run_snoc inv.acc).trans h1) rfl rfl (fun h => by cases h) (fun h => by rw [h2]; exact inv.free h) (fun _ _ => ⟨rfl, h2⟩) h3 h4
        (fun d D op' h => by rw [h4] at h; cases h) (fun D op' h => by rw [h4] at h; cases h) (fun fd h _ => ⟨rfl, h5 fd h⟩) (fun _ h => by cases h) (fun _ h => by cases h)
        (fun fd h _ => .inr (h6 fd h)) .nil⟩
    rcases hr with (⟨dfd, dir, obj', h1, h2⟩ | ⟨dfd, kn, h1, h2⟩) | ⟨h1, h2⟩
    · refine hfin { σ with calls := upd σ.calls t .idle, fds := if opens op = true ∧ 0 ≤ r then upd σ.fds r.toNat (some obj') else σ.fds } (by simp [AtSpec.step, h1]) rfl
        (fun u hu => upd_ne _ _ hu) (upd_same _ _ _) (fun fd hfd => ?_) (fun fd hfd => ⟨obj', h2 fd hfd, ?_⟩)
      · simp only
        split
        · rename_i hh; exact upd_ne _ _ (by simpa [heldRes, cleanup_opens, hh] using hfd)
        · rfl
      · simp only
        by_cases hh : opens op = true ∧ 0 ≤ r
        · rw [if_pos hh]
          simp only [heldRes, cleanup_opens, hh, and_self, if_true, Option.toList_some, List.mem_singleton] at hfd
          subst hfd; exact upd_same _ _ _
        · simp [heldRes, cleanup_opens, hh] at hfd
    · refine hfin { σ with calls := upd σ.calls t .idle } (by simp [AtSpec.step, h1, h2]) rfl (fun u hu => upd_ne _ _ hu) (upd_same _ _ _) (fun _ _ => rfl) (fun fd hfd => ?_)
      subst h2; simp [heldRes, cleanup_opens] at hfd
    · refine hfin { σ with calls := upd σ.calls t .idle } (by simp [AtSpec.step, h1, h2]) rfl (fun u hu => upd_ne _ _ hu) (upd_same _ _ _) (fun _ _ => rfl) (fun fd hfd => ?_)
      subst h2; simp [heldRes, cleanup_opens] at hfd

theorem forget_rel {s : St} {σ : AtSpec.S} {fd t : Nat} {p : Ph} {f f' : Nat → Option Nat} {l : List Ev} (h : Rel s σ t p) (hf : ∀ x ∈ held p, f x = s.fds x) :
    Rel { s with fds := f, log := l } { σ with fds := f', calls := fun t => forget fd (σ.calls t) } t p := by
  have fin : ∀ op res, (∀ x ∈ heldRes op res, f x = s.fds x) → Fin s σ t op res → Fin { s with fds := f, log := l } { σ with fds := f', calls := fun t => forget fd (σ.calls t) } t op res := by
    intro op res hx h
    rcases h with ⟨dfd, dir, obj, h1, h2⟩ | ⟨dfd, kn, h1, h2⟩
    · exact .inl ⟨dfd, dir, obj, by show forget fd (σ.calls t) = _; rw [h1]; rfl, fun x h => (hx x h).trans (h2 x h)⟩
    · cases dfd with
      | none => exact .inr ⟨none, kn, by show forget fd (σ.calls t) = _; rw [h1]; rfl, h2⟩
      | some d => exact .inr ⟨some d, _, by show forget fd (σ.calls t) = _; rw [h1]; rfl, h2⟩
  have hknown : ∀ (d : Nat) (kn : Option Nat), (∀ D ∈ kn, s.cwd = D) → ∀ D ∈ (if d = fd then none else kn), s.cwd = D := by
    intro d kn h D hD
    split at hD
    · cases hD
    · exact h D hD
  cases p with
  | idle => show forget fd (σ.calls t) = _; rw [show σ.calls t = .idle from h]; rfl
  | enter d op =>
    obtain ⟨k, hk⟩ := h
    cases d with
    | none => exact ⟨k, by show forget fd (σ.calls t) = _; rw [hk]; rfl⟩
    | some d => exact ⟨_, by show forget fd (σ.calls t) = _; rw [hk]; rfl⟩
  | openDot d op => obtain ⟨⟨k, hk⟩, h⟩ := h; exact ⟨⟨_, by show forget fd (σ.calls t) = _; rw [hk]; rfl⟩, h⟩
  | fchdirTo d op c =>
    obtain ⟨⟨k, hk⟩, h, h3⟩ := h
    exact ⟨⟨_, by show forget fd (σ.calls t) = _; rw [hk]; rfl⟩, h, (hf c (by simp [held])).trans h3⟩
  | closeFail op c =>
    obtain ⟨⟨d, k, hk⟩, h⟩ := h
    cases d with
    | none => exact ⟨⟨none, k, by show forget fd (σ.calls t) = _; rw [hk]; rfl⟩, h⟩
    | some d => exact ⟨⟨some d, _, by show forget fd (σ.calls t) = _; rw [hk]; rfl⟩, h⟩
  | unlockFail op =>
    obtain ⟨⟨d, k, hk⟩, h⟩ := h
    cases d with
    | none => exact ⟨⟨none, k, by show forget fd (σ.calls t) = _; rw [hk]; rfl⟩, h⟩
    | some d => exact ⟨⟨some d, _, by show forget fd (σ.calls t) = _; rw [hk]; rfl⟩, h⟩
  | func op c =>
    cases c with
    | none => obtain ⟨⟨k, hk, hk'⟩, h⟩ := h; exact ⟨⟨k, by show forget fd (σ.calls t) = _; rw [hk]; rfl, hk'⟩, h⟩
    | some c => obtain ⟨⟨d, k, hk, hk'⟩, h⟩ := h; exact ⟨⟨d, _, by show forget fd (σ.calls t) = _; rw [hk]; rfl, hknown d k hk'⟩, (hf c (by simp [held])).trans h⟩
  | back op c res =>
    obtain ⟨h1, h2⟩ := h
    refine ⟨(hf c (by simp [held])).trans h1, ?_⟩
    rcases h2 with ⟨d, obj, h2, h3⟩ | ⟨d, k, h2, h3, h4, h5⟩
    · exact .inl ⟨d, obj, by show forget fd (σ.calls t) = _; rw [h2]; rfl, fun x hx => (hf x (by simp [held, hx])).trans (h3 x hx)⟩
    · exact .inr ⟨d, _, by show forget fd (σ.calls t) = _; rw [h2]; rfl, h3, h4, hknown d k h5⟩
  | closeDot op c res b =>
    obtain ⟨h1, h2⟩ := h
    refine ⟨h1, ?_⟩
    cases b with
    | true => exact fin op res (fun x hx => hf x (by simp [held, hx])) h2
    | false => show forget fd (σ.calls t) = _; rw [show σ.calls t = .lost from h2]; rfl
  | unlock op res b =>
    obtain ⟨h1, h2⟩ := h
    refine ⟨h1, ?_⟩
    cases b with
    | true => exact fin op res (fun x hx => hf x (by simp [held, hx])) h2
    | false => show forget fd (σ.calls t) = _; rw [show σ.calls t = .lost from h2]; rfl
  | cleanup op res => show forget fd (σ.calls t) = _; rw [show σ.calls t = .lost from h]; rfl
  | ret op r =>
    rcases h with h | ⟨h1, h2⟩
    · exact .inl (fin op r (fun x hx => hf x (by simp [held, hx])) h)
    · exact .inr ⟨by show forget fd (σ.calls t) = _; rw [h1]; rfl, h2⟩

theorem inv_step {σ0 : AtSpec.S} {s s' : St} {σ : AtSpec.S} (inv : Inv σ0 s σ) {a : Act} (h : step (AtSpec.has σ0) s a = some s') : ∃ σ', Inv σ0 s' σ' := by
  cases a with
  | call t dfd op =>
    simp only [step] at h
    split at h
    · rename_i hp
      cases h
      have hr := inv.rel t
      rw [hp] at hr
      have hr' : σ.calls t = .idle := hr
      refine ⟨{ σ with calls := upd σ.calls t (.called dfd (dfd.bind σ.fds) op) }, inv_thread inv (.enter dfd op) hp ((run_snoc inv.acc).trans (by simp [AtSpec.step, hr']))
        rfl rfl (fun h => by cases h) inv.free (fun _ _ => ⟨rfl, rfl⟩) (fun u hu => upd_ne _ _ hu) ⟨_, upd_same _ _ _⟩ (fun d D op' h => ?_) (fun D op' h => ?_)
        (fun _ _ _ => ⟨rfl, rfl⟩) (fun _ h => by cases h) (fun _ h => by cases h) (fun _ h => by cases h) .nil⟩
      · simp only [upd_same, Call.called.injEq] at h
        obtain ⟨rfl, h2, _⟩ := h
        exact h2
      · simp only [upd_same, Call.called.injEq] at h
        obtain ⟨rfl, h2, _⟩ := h
        exact h2.symm
    · cases h
  | go t ok n obj => exact inv_go inv rfl h
  | openFd fd obj =>
    simp only [step] at h
    split at h
    · rename_i hn
      cases h
      have hσ : σ.fds fd = none := by
        cases h2 : σ.fds fd with
        | none => rfl
        | some o => rw [inv.user fd o h2] at hn; cases hn
      have hnh : ∀ t, fd ∉ held (s.th t) := fun t h => by have := (inv.held1 t fd h).1; rw [hn] at this; cases this
      refine ⟨{ σ with fds := upd σ.fds fd (some obj) }, (run_snoc inv.acc).trans (by simp [AtSpec.step, hσ]), inv.lockd, inv.free, fun t => ?_, fun t d D op h => ?_, inv.cknown, fun t x hx => ?_, inv.disj,
        inv.nodup, fun x o h => ?_, fun x o h => ?_⟩
      · exact (inv.rel t).frame rfl (fun x hx => upd_ne _ _ (fun h => hnh t (h ▸ hx))) (fun _ => ⟨rfl, rfl⟩)
      · have := inv.known t d D op h
        show upd σ.fds fd (some obj) d = _
        rw [upd_ne _ _ (fun h => by subst h; rw [hσ] at this; cases this), this]
      · have hne : x ≠ fd := fun h => hnh t (h ▸ hx)
        show (upd s.fds fd (some obj) x).isSome = true ∧ upd σ.fds fd (some obj) x = none
        rw [upd_ne _ _ hne, upd_ne _ _ hne]; exact inv.held1 t x hx
      · show upd σ.fds fd (some obj) x = _ ∨ _
        replace h : upd s.fds fd (some obj) x = some o := h
        by_cases hx : x = fd
        · subst hx; rw [upd_same] at h ⊢; exact .inl h
        · rw [upd_ne _ _ hx] at h ⊢; exact inv.cover x o h
      · show upd s.fds fd (some obj) x = _
        replace h : upd σ.fds fd (some obj) x = some o := h
        by_cases hx : x = fd
        · subst hx; rw [upd_same] at h ⊢; exact h
        · rw [upd_ne _ _ hx] at h ⊢; exact inv.user x o h
    · cases h
  | closeFd fd =>
    simp only [step] at h
    split at h
    · rename_i hh
      cases h
      have hσ : (σ.fds fd).isSome = true := by simpa [AtSpec.has, inv.acc] using hh
      have hσ' : σ.fds fd ≠ none := fun h => by rw [h] at hσ; cases hσ
      have hnh : ∀ t, fd ∉ held (s.th t) := fun t h => hσ' (inv.held1 t fd h).2
      refine ⟨{ σ with fds := upd σ.fds fd none, calls := fun t => forget fd (σ.calls t) }, (run_snoc inv.acc).trans (by simp [AtSpec.step, hσ']), inv.lockd, inv.free, fun t => ?_, fun t d D op h => ?_,
        fun t D op h => ?_, fun t x hx => ?_, inv.disj, inv.nodup, fun x o h => ?_, fun x o h => ?_⟩
      · exact forget_rel (s := s) (f := upd s.fds fd none) (f' := upd σ.fds fd none) (l := s.log ++ [.closeFd fd]) (inv.rel t) (fun x hx => upd_ne _ _ (fun h => hnh t (h ▸ hx)))
      · show upd σ.fds fd none d = _
        replace h : forget fd (σ.calls t) = .called (some d) (some D) op := h
        cases hc : σ.calls t with
        | idle => rw [hc] at h; cases h
        | lost => rw [hc] at h; cases h
        | done a b c d e => rw [hc] at h; cases h
        | called a k op' =>
          rw [hc] at h
          cases a with
          | none => simp [forget] at h
          | some d' =>
            simp only [forget, Call.called.injEq, Option.some.injEq] at h
            obtain ⟨rfl, h2, rfl⟩ := h
            split at h2
            · cases h2
            · rename_i hne; subst h2; rw [upd_ne _ _ hne]; exact inv.known t _ _ _ hc
      · replace h : forget fd (σ.calls t) = .called none D op := h
        cases hc : σ.calls t with
        | idle => rw [hc] at h; cases h
        | lost => rw [hc] at h; cases h
        | done a b c d e => rw [hc] at h; cases h
        | called a k op' =>
          rw [hc] at h
          cases a with
          | none => simp only [forget] at h; rw [h] at hc; exact inv.cknown t D op hc
          | some d' => simp [forget] at h
      · have hne : x ≠ fd := fun h => hnh t (h ▸ hx)
        show (upd s.fds fd none x).isSome = true ∧ upd σ.fds fd none x = none
        rw [upd_ne _ _ hne, upd_ne _ _ hne]; exact inv.held1 t x hx
      · show upd σ.fds fd none x = _ ∨ _
        replace h : upd s.fds fd none x = some o := h
        by_cases hx : x = fd
        · subst hx; rw [upd_same] at h; cases h
        · rw [upd_ne _ _ hx] at h ⊢; exact inv.cover x o h
      · show upd s.fds fd none x = _
        replace h : upd σ.fds fd none x = some o := h
        by_cases hx : x = fd
        · subst hx; rw [upd_same] at h; cases h
        · rw [upd_ne _ _ hx] at h ⊢; exact inv.user x o h
    · cases h

theorem inv_run {σ0 : AtSpec.S} : ∀ {as : List Act} {s s' : St} {σ : AtSpec.S}, Inv σ0 s σ → run (AtSpec.has σ0) s as = some s' → ∃ σ', Inv σ0 s' σ' := by
  intro as
  induction as with
  | nil => intro s s' σ inv h; cases h; exact ⟨σ, inv⟩
  | cons a as ih =>
    intro s s' σ inv h
    simp only [run, Option.bind_eq_some_iff] at h
    obtain ⟨s1, h1, h2⟩ := h
    obtain ⟨σ1, inv1⟩ := inv_step inv h1
    exact ih inv1 h2

theorem inv_start (cwd : Nat) (fds : Nat → Option Nat) : Inv ⟨cwd, fds, fun _ => .idle⟩ (start cwd fds) ⟨cwd, fds, fun _ => .idle⟩ where
  acc := rfl
  lockd t := by simp [start, locked]
  free _ := rfl
  rel t := rfl
  known t d D op h := by cases h
  cknown t D op h := by cases h
  held1 t fd h := by cases h
  disj t u fd h := by cases h
  nodup t := .nil
  cover fd o h := .inl h
  user fd o h := h

/-- Steps a thread still has to make. -/
def rank : Ph → Nat
  | .idle => 0 | .ret _ _ => 1 | .cleanup _ _ => 2 | .unlock _ _ _ => 3 | .closeDot _ _ _ _ => 4 | .back _ _ _ => 5 | .unlockFail _ => 2 | .closeFail _ _ => 3
  | .func _ _ => 6 | .fchdirTo _ _ _ => 7 | .openDot _ _ => 8 | .enter _ _ => 9

theorem perform_th {s s1 : St} {t : Nat} {op : Op} {ok : Bool} {n obj : Nat} {res : Int} (h : perform s t op ok n obj = some (s1, res)) : s1.th = s.th := by
  unfold perform at h
  repeat' split at h
  all_goals first | cases h; rfl | cases h

theorem go_rank {s s' : St} {t : Nat} {ok : Bool} {n obj : Nat} {p : Ph} (h : go s t ok n obj p = some s') : ∃ p', s'.th = upd s.th t p' ∧ rank p' < rank p := by
  cases p with
  | idle => cases h
  | func op c =>
    simp only [go, Option.bind_eq_some_iff] at h
    obtain ⟨⟨s1, res⟩, h1, h2⟩ := h
    have := perform_th h1
    cases c with
    | none => cases h2; exact ⟨_, by show upd s1.th t _ = _; rw [this], by simp [rank]⟩
    | some c => cases h2; exact ⟨_, by show upd s1.th t _ = _; rw [this], by simp [rank]⟩
  | unlock op res b => cases h; exact ⟨_, rfl, by cases b <;> simp [rank]⟩
  | enter d op =>
    simp only [go] at h
    repeat' split at h
    all_goals first | (cases h; exact ⟨_, rfl, by simp [rank]⟩) | cases h
  | _ =>
    simp only [go] at h
    repeat' split at h
    all_goals first | (cases h; exact ⟨_, rfl, by simp [rank]⟩) | cases h

end At
