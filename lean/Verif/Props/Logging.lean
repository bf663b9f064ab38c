import Verif.Model.Logging
import Verif.Spec.Logging
import Verif.Props.StrCompare
/-! # C110 - C113: logging -/
namespace Logging
open LoggingSpec (Call History globalOf own levels hookOf colorOf body hooked consoleLine syslogLine label levelNames moduleNames lower)

/-- One call of a thread. -/
def step (st : State) (t : Nat) : Call → Option (List Event × State)
  | .setGlobal l => some ([], setGlobalLevel st t l)
  | .setLevels a b => some ([], privSetLevels st t a b)
  | .setHook p => some ([], privSetContext st t p)
  | .setColor b => some ([], setColor st t b)
  | .free => some ([], freeCtx st t)
  | .wouldLog l => some ([], (wouldLog st t l).2)
  | .log s l m => vlog st t s l m

/-- The state after a history (newest call first), from any prefix, agent name and timestamp setting. -/
def run (v a : Bytes) (ts : Bool) : History → Option State
  | [] => some { State.init with vprefix := v, agent := a, timestamps := ts }
  | (t, c) :: h => do
    let st ← run v a ts h
    let r ← step st t c
    some r.2

/-- The context a thread has, or would get. -/
def view (st : State) (t : Nat) : Ctx := (getCtx st t).1

theorem getCtx_global (st : State) (t : Nat) : (getCtx st t).2.global = st.global := by
  unfold getCtx; split <;> rfl
theorem getCtx_same (st : State) (t : Nat) : (getCtx st t).2.vprefix = st.vprefix ∧ (getCtx st t).2.agent = st.agent ∧ (getCtx st t).2.timestamps = st.timestamps ∧ (getCtx st t).2.enabled = st.enabled := by
  unfold getCtx; split <;> simp

theorem vlog_state (st : State) (t : Nat) (s : Bytes) (l : Int) (m : Bytes) (r : List Event × State) (h : vlog st t s l m = some r) : r.2 = (getCtx st t).2 := by
  simp only [vlog] at h
  split at h
  · simp only [Option.some.injEq] at h; rw [← h]
  · simp only [Option.bind_eq_bind, Option.bind_eq_some_iff, Option.some.injEq] at h
    obtain ⟨_, _, _, _, h⟩ := h
    rw [← h]

/-- The representation: a thread without own settings has no context, otherwise the context has them. -/
def Rep (st : State) (h : History) : Prop :=
  st.global = globalOf h ∧ ∀ t, st.ctx t = (own t h).map fun l => ⟨l.1, l.2, colorOf t h, hookOf t h⟩

theorem own_none (t : Nat) (h : History) (e : own t h = none) : colorOf t h = false ∧ hookOf t h = none := by
  induction h with
  | nil => simp [colorOf, hookOf]
  | cons x h ih =>
    obtain ⟨u, c⟩ := x
    by_cases hu : u = t
    · cases c <;> simp_all [own, colorOf, hookOf]
    · simp only [own, colorOf, hookOf, ne_eq, hu, not_false_eq_true, if_true] at e ⊢; exact ih e

theorem getCtx_eq (st : State) (h : History) (hr : Rep st h) (t : Nat) :
    getCtx st t = (⟨(levels t h).1, (levels t h).2, colorOf t h, hookOf t h⟩, { st with ctx := fun u => if u = t then some ⟨(levels t h).1, (levels t h).2, colorOf t h, hookOf t h⟩ else st.ctx u }) := by
  unfold getCtx
  rw [hr.2 t]
  cases e : own t h with
  | none =>
    have := own_none t h e
    simp [levels, e, this.1, this.2, hr.1]
  | some l =>
    simp only [Option.map_some, levels, e, Option.getD_some, Prod.mk.injEq, true_and]
    have : st.ctx = fun u => if u = t then some ⟨l.1, l.2, colorOf t h, hookOf t h⟩ else st.ctx u := by
      funext u
      split
      · subst u; rw [hr.2 t, e]; rfl
      · rfl
    rw [← this]

theorem step_rep (st : State) (h : History) (hr : Rep st h) (t : Nat) (c : Call) (r : List Event × State) (e : step st t c = some r) : Rep r.2 ((t, c) :: h) := by
  have hg := getCtx_eq st h hr t
  have use : ∀ c : Call, (∀ l, c ≠ .setGlobal l) → own t ((t, c) :: h) = some (levels t h) → colorOf t ((t, c) :: h) = colorOf t h → hookOf t ((t, c) :: h) = hookOf t h →
      Rep (getCtx st t).2 ((t, c) :: h) := by
    intro c h0 h1 h2 h3
    rw [hg]
    refine ⟨?_, fun u => ?_⟩
    · have : globalOf ((t, c) :: h) = globalOf h := by
        cases c <;> simp_all [globalOf]
      rw [this]; exact hr.1
    · by_cases hu : u = t
      · subst u; simp only [if_true, h1, h2, h3, Option.map_some]
      · have hu' : t ≠ u := fun h => hu h.symm
        simp only [hu, if_false, own, colorOf, hookOf, hu', ne_eq, not_false_eq_true, if_true]
        exact hr.2 u
  have other : ∀ (st' : State) (c : Call), st'.global = globalOf ((t, c) :: h) → (∀ u, u ≠ t → st'.ctx u = st.ctx u) →
      st'.ctx t = (own t ((t, c) :: h)).map (fun l => ⟨l.1, l.2, colorOf t ((t, c) :: h), hookOf t ((t, c) :: h)⟩) → Rep st' ((t, c) :: h) := by
    intro st' c h1 h2 h3
    refine ⟨h1, fun u => ?_⟩
    by_cases hu : u = t
    · subst u; exact h3
    · have hu' : t ≠ u := fun h => hu h.symm
      simp only [own, colorOf, hookOf, hu', ne_eq, not_false_eq_true, if_true]
      rw [h2 u hu]; exact hr.2 u
  cases c with
  | setGlobal l =>
    simp only [step, Option.some.injEq] at e; subst e
    have hr' : Rep { st with global := l } ((t, .setLevels 0 0) :: h) → True := fun _ => trivial
    refine other _ _ ?_ ?_ ?_
    · simp [setGlobalLevel, privSetLevels, setCtx, getCtx_global, globalOf]
    · intro u hu
      simp only [setGlobalLevel, privSetLevels, setCtx, hu, if_false]
      unfold getCtx; split <;> simp [hu]
    · simp only [setGlobalLevel, privSetLevels, setCtx, if_true, own, colorOf, hookOf, ne_eq, not_true_eq_false, if_false, Option.map_some]
      have h1 := hg
      unfold getCtx at h1 ⊢
      split
      · rename_i c hc
        have hc' : st.ctx t = some c := hc
        simp only [hc'] at h1
        rw [(Prod.mk.inj h1).1]
      · rename_i hc
        have hc' : st.ctx t = none := hc
        simp only [hc'] at h1
        have h2 := (Prod.mk.inj h1).1
        simp only [Ctx.mk.injEq] at h2
        simp [← h2.2.2.1, ← h2.2.2.2]
  | setLevels a b =>
    simp only [step, Option.some.injEq] at e; subst e
    refine other _ _ ?_ ?_ ?_
    · simp [privSetLevels, setCtx, hg, globalOf, hr.1]
    · intro u hu; simp [privSetLevels, setCtx, hg, hu]
    · simp [privSetLevels, setCtx, hg, own, colorOf, hookOf]
  | setHook p =>
    simp only [step, Option.some.injEq] at e; subst e
    refine other _ _ ?_ ?_ ?_
    · simp [privSetContext, setCtx, hg, globalOf, hr.1]
    · intro u hu; simp [privSetContext, setCtx, hg, hu]
    · simp [privSetContext, setCtx, hg, own, colorOf, hookOf, levels]
  | setColor b =>
    simp only [step, Option.some.injEq] at e; subst e
    refine other _ _ ?_ ?_ ?_
    · simp [setColor, setCtx, hg, globalOf, hr.1]
    · intro u hu; simp [setColor, setCtx, hg, hu]
    · simp [setColor, setCtx, hg, own, colorOf, hookOf, levels]
  | free =>
    simp only [step, Option.some.injEq] at e; subst e
    refine other _ _ ?_ ?_ ?_
    · unfold freeCtx; split <;> simp [setCtx, globalOf, hr.1]
    · intro u hu; unfold freeCtx; split <;> simp [setCtx, hu]
    · unfold freeCtx
      split
      · simp_all [own]
      · simp [setCtx, own]
  | wouldLog l =>
    simp only [step, Option.some.injEq] at e; subst e
    exact use _ (by simp) (by simp [own, levels]) (by simp [colorOf]) (by simp [hookOf])
  | log s l m =>
    rw [vlog_state st t s l m r e]
    exact use _ (by simp) (by simp [own, levels]) (by simp [colorOf]) (by simp [hookOf])

theorem run_rep (v a : Bytes) (ts : Bool) : ∀ (h : History) (st : State), run v a ts h = some st → Rep st h ∧ st.vprefix = v ∧ st.agent = a ∧ st.timestamps = ts := by
  intro h
  induction h with
  | nil => intro st e; simp only [run, Option.some.injEq] at e; subst e; exact ⟨⟨rfl, fun t => by simp [own, State.init]⟩, rfl, rfl, rfl⟩
  | cons x h ih =>
    obtain ⟨t, c⟩ := x
    intro st e
    simp only [run, Option.bind_eq_bind, Option.bind_eq_some_iff, Option.some.injEq] at e
    obtain ⟨st0, e0, r, er, rfl⟩ := e
    obtain ⟨h1, h2, h3, h4⟩ := ih st0 e0
    refine ⟨step_rep st0 h h1 t c r er, ?_⟩
    have hs := getCtx_same st0 t
    have key : ∀ st' : State, st'.vprefix = st0.vprefix ∧ st'.agent = st0.agent ∧ st'.timestamps = st0.timestamps → st'.vprefix = v ∧ st'.agent = a ∧ st'.timestamps = ts := by
      intro st' ⟨a1, a2, a3⟩; rw [a1, a2, a3]; exact ⟨h2, h3, h4⟩
    apply key
    cases c with
    | log s l m => rw [vlog_state st0 t s l m r er]; exact ⟨hs.1, hs.2.1, hs.2.2.1⟩
    | setGlobal l =>
      simp only [step, Option.some.injEq] at er; subst er
      have := getCtx_same { st0 with global := l } t
      exact ⟨this.1, this.2.1, this.2.2.1⟩
    | free =>
      simp only [step, Option.some.injEq] at er; subst er
      simp only [freeCtx]; split <;> simp [setCtx]
    | setLevels a b => simp only [step, Option.some.injEq] at er; subst er; exact ⟨hs.1, hs.2.1, hs.2.2.1⟩
    | setHook a => simp only [step, Option.some.injEq] at er; subst er; exact ⟨hs.1, hs.2.1, hs.2.2.1⟩
    | setColor a => simp only [step, Option.some.injEq] at er; subst er; exact ⟨hs.1, hs.2.1, hs.2.2.1⟩
    | wouldLog a => simp only [step, Option.some.injEq] at er; subst er; exact ⟨hs.1, hs.2.1, hs.2.2.1⟩

theorem dropEol_eq (m : Bytes) : dropEol m = body m := by
  induction m with
  | nil => rfl
  | cons c cs ih =>
    cases cs with
    | nil => simp [dropEol, body]
    | cons d ds =>
      simp only [dropEol, ih, body, List.getLast?_cons_cons]
      split <;> simp

theorem int7 {level : Int} (h : 0 ≤ level ∧ level ≤ 6) : level = 0 ∨ level = 1 ∨ level = 2 ∨ level = 3 ∨ level = 4 ∨ level = 5 ∨ level = 6 := by omega

theorem toConsole_eq (st : State) (stamp msg : Bytes) (level : Int) (color : Bool) (h : 0 ≤ level ∧ level ≤ 6) :
    toConsole st stamp msg level color = some (consoleLine st.vprefix (if st.timestamps then some stamp else none) color level msg) := by
  rcases int7 h with h | h | h | h | h | h | h <;> subst h <;> cases color <;> cases hT : st.timestamps <;>
    simp [toConsole, consoleLine, levelToColor, levelToString, pad8, label, LoggingSpec.colorDigit, hT]

theorem toSyslog_eq (st : State) (msg : Bytes) (level : Int) (h : 0 ≤ level ∧ level ≤ 6) (h4 : level < 5) :
    toSyslog st msg level = some (.syslog (level + 2).toNat (syslogLine st.agent st.vprefix msg)) := by
  have : level = 0 ∨ level = 1 ∨ level = 2 ∨ level = 3 ∨ level = 4 := by omega
  rcases this with h | h | h | h | h <;> subst h <;> simp [toSyslog, syslogPriority, syslogLine]

theorem forceHook_iff (c : Ctx) (level : Int) : forceHook c level = true ↔ LoggingSpec.forced c.pctx level := by
  unfold forceHook LoggingSpec.forced
  cases c.pctx with
  | none => simp
  | some p =>
    cases hh : p.hook with
    | none => simp [hh]
    | some f => simp [hh]

theorem callHook_eq (c : Ctx) (level : Int) (msg : Bytes) [Decidable (LoggingSpec.hasHook c.pctx)] :
    callHook c level msg = (hooked c.pctx level msg, if LoggingSpec.hasHook c.pctx then [.hooked level msg] else []) := by
  obtain ⟨lg, rp, co, px⟩ := c
  cases px with
  | none => simp [callHook, LoggingSpec.hasHook, hooked]
  | some p =>
    obtain ⟨hk, fo⟩ := p
    cases hk with
    | none => simp [callHook, LoggingSpec.hasHook, hooked]
    | some f => simp [callHook, LoggingSpec.hasHook, hooked]

/-- After every history of calls of any threads, a message goes exactly where the levels and the hook its own thread has set (or the global level when it first used logging) say, with exactly this text. -/
theorem C110_messages_go_where_the_levels_say (v a : Bytes) (ts : Bool) (h : History) (st : State) (hr : run v a ts h = some st) (t : Nat) (stamp : Bytes) (level : Int) (msg : Bytes)
    (hl : 0 ≤ level ∧ level ≤ 6) :
    ∃ st', vlog st t stamp level msg = some (LoggingSpec.events v a (if ts then some stamp else none) (levels t h) (hookOf t h) (colorOf t h) level msg, st') := by
  obtain ⟨h1, rfl, rfl, rfl⟩ := run_rep v a ts h st hr
  have hg := getCtx_eq st h h1 t
  have c1 : logToConsole ⟨(levels t h).1, (levels t h).2, colorOf t h, hookOf t h⟩ level = true ↔ LoggingSpec.toConsole (levels t h) level := by simp [logToConsole, LoggingSpec.toConsole]
  have c2 : logToSyslog ⟨(levels t h).1, (levels t h).2, colorOf t h, hookOf t h⟩ level = true ↔ LoggingSpec.toSyslog (levels t h) level := by simp [logToSyslog, LoggingSpec.toSyslog]; omega
  have c3 := forceHook_iff ⟨(levels t h).1, (levels t h).2, colorOf t h, hookOf t h⟩ level
  simp only [vlog, hg]
  by_cases hw : LoggingSpec.wanted (levels t h) (hookOf t h) level
  · have : (!logToConsole ⟨(levels t h).1, (levels t h).2, colorOf t h, hookOf t h⟩ level && !logToSyslog ⟨(levels t h).1, (levels t h).2, colorOf t h, hookOf t h⟩ level &&
        !forceHook ⟨(levels t h).1, (levels t h).2, colorOf t h, hookOf t h⟩ level) = false := by
      rcases hw with hw | hw | hw
      · simp [c1.mpr hw]
      · simp [c2.mpr hw]
      · simp [c3.mpr hw]
    simp only [this, Bool.false_eq_true, if_false]
    classical
    rw [callHook_eq]
    simp only [consoleEvents, syslogEvents, toConsole_eq _ _ _ _ _ hl, LoggingSpec.events, hw, and_true, dropEol_eq]
    by_cases d1 : LoggingSpec.toConsole (levels t h) level <;> by_cases d2 : LoggingSpec.toSyslog (levels t h) level
    · simp [c1.mpr d1, c2.mpr d2, d1, d2, toSyslog_eq _ _ _ hl (by have := d2.2; omega)]
    · have e2 : logToSyslog ⟨(levels t h).1, (levels t h).2, colorOf t h, hookOf t h⟩ level = false := Bool.eq_false_iff.mpr fun x => d2 (c2.mp x)
      simp [c1.mpr d1, e2, d1, d2]
    · have e1 : logToConsole ⟨(levels t h).1, (levels t h).2, colorOf t h, hookOf t h⟩ level = false := Bool.eq_false_iff.mpr fun x => d1 (c1.mp x)
      simp [e1, c2.mpr d2, d1, d2, toSyslog_eq _ _ _ hl (by have := d2.2; omega)]
    · have e1 : logToConsole ⟨(levels t h).1, (levels t h).2, colorOf t h, hookOf t h⟩ level = false := Bool.eq_false_iff.mpr fun x => d1 (c1.mp x)
      have e2 : logToSyslog ⟨(levels t h).1, (levels t h).2, colorOf t h, hookOf t h⟩ level = false := Bool.eq_false_iff.mpr fun x => d2 (c2.mp x)
      simp [e1, e2, d1, d2]
  · have hw' := hw
    simp only [LoggingSpec.wanted, not_or] at hw'
    obtain ⟨d1, d2, d3⟩ := hw'
    have e1 : logToConsole ⟨(levels t h).1, (levels t h).2, colorOf t h, hookOf t h⟩ level = false := Bool.eq_false_iff.mpr fun x => d1 (c1.mp x)
    have e2 : logToSyslog ⟨(levels t h).1, (levels t h).2, colorOf t h, hookOf t h⟩ level = false := Bool.eq_false_iff.mpr fun x => d2 (c2.mp x)
    have e3 : forceHook ⟨(levels t h).1, (levels t h).2, colorOf t h, hookOf t h⟩ level = false := Bool.eq_false_iff.mpr fun x => d3 (c3.mp x)
    simp [e1, e2, e3, LoggingSpec.events, hw, d1, d2]

/-- WouldLog tells exactly whether a message of that level would cause anything. -/
theorem C110_wouldLog (v a : Bytes) (ts : Bool) (h : History) (st : State) (hr : run v a ts h = some st) (t : Nat) (stamp : Bytes) (level : Int) (msg : Bytes) (hl : 0 ≤ level ∧ level ≤ 6) :
    ∃ ev st', vlog st t stamp level msg = some (ev, st') ∧ ((wouldLog st t level).1 = true ↔ ev ≠ []) := by
  obtain ⟨st', e⟩ := C110_messages_go_where_the_levels_say v a ts h st hr t stamp level msg hl
  refine ⟨_, st', e, ?_⟩
  have hg := getCtx_eq st h (run_rep v a ts h st hr).1 t
  have c3 := forceHook_iff ⟨(levels t h).1, (levels t h).2, colorOf t h, hookOf t h⟩ level
  have key : (wouldLog st t level).1 = true ↔ LoggingSpec.wanted (levels t h) (hookOf t h) level := by
    simp only [wouldLog, hg, Bool.or_eq_true, c3, or_assoc]
    simp only [logToConsole, logToSyslog, LoggingSpec.wanted, LoggingSpec.toConsole, LoggingSpec.toSyslog, decide_eq_true_eq]
    constructor
    · rintro (h | h | h)
      · exact .inl h
      · exact .inr (.inl ⟨h.1, by omega⟩)
      · exact .inr (.inr h)
    · rintro (h | h | h)
      · exact .inl h
      · exact .inr (.inl ⟨h.1, by omega⟩)
      · exact .inr (.inr h)
  rw [key]
  constructor
  · rintro (d | d | d)
    · simp [LoggingSpec.events, d]
    · simp [LoggingSpec.events, d]
    · have : LoggingSpec.hasHook (hookOf t h) := by obtain ⟨q, f, h1, h2, _⟩ := d; exact ⟨q, f, h1, h2⟩
      have hw : LoggingSpec.wanted (levels t h) (hookOf t h) level := .inr (.inr d)
      simp [LoggingSpec.events, this, hw]
  · intro hne
    refine Classical.byContradiction fun hw => hne ?_
    have hw' := hw
    simp only [LoggingSpec.wanted, not_or] at hw'
    simp [LoggingSpec.events, hw, hw'.1, hw'.2.1]

/-- LogRaw logs the prefix and the bytes with '.' for every byte that is not printable, whenever a message would go to standard output or syslog. Missing: messages only the hook wants, for which it is false (see the findings). -/
theorem C110_raw_partial (v a : Bytes) (ts : Bool) (h : History) (st : State) (hr : run v a ts h = some st) (t : Nat) (stamp : Bytes) (level : Int) (pre buf : Bytes) (n : Nat)
    (hl : 0 ≤ level ∧ level ≤ 6) (hn : n ≤ 4096) (hb : n ≤ buf.length) (hf : LoggingSpec.forced (hookOf t h) level → level ≤ (levels t h).2 ∨ level ≤ (levels t h).1) :
    ∃ st', logRaw st t stamp level pre buf n = some (LoggingSpec.events v a (if ts then some stamp else none) (levels t h) (hookOf t h) (colorOf t h) level
      (pre ++ (buf.take n).map fun c => if 32 ≤ c ∧ c ≤ 126 then c else 46), st') := by
  have hg := getCtx_eq st h (run_rep v a ts h st hr).1 t
  have hp : (fun c => if Str.isprint c then c else 46) = (fun c : UInt8 => if 32 ≤ c ∧ c ≤ 126 then c else 46) := by funext c; simp [Str.isprint]
  have hr' : run v a ts ((t, .wouldLog level) :: h) = some (getCtx st t).2 := by simp [run, hr, step, wouldLog]
  have e1 : levels t ((t, .wouldLog level) :: h) = levels t h := by simp [levels, own]
  have e2 : hookOf t ((t, .wouldLog level) :: h) = hookOf t h := by simp [hookOf]
  have e3 : colorOf t ((t, .wouldLog level) :: h) = colorOf t h := by simp [colorOf]
  simp only [logRaw, BUFSIZE, Nat.not_lt.mpr hn, if_false, hb, if_true]
  split
  · obtain ⟨st', e⟩ := C110_messages_go_where_the_levels_say v a ts _ _ hr' t stamp level (pre ++ (buf.take n).map fun c => if Str.isprint c then c else 46) hl
    rw [e1, e2, e3] at e
    rw [e, hp]; exact ⟨st', rfl⟩
  · rename_i hc
    rw [hg] at hc ⊢
    simp only [not_or] at hc
    have d1 : ¬LoggingSpec.toConsole (levels t h) level := hc.1
    have d2 : ¬LoggingSpec.toSyslog (levels t h) level := fun x => hc.2 x.1
    have d3 : ¬LoggingSpec.forced (hookOf t h) level := fun x => by rcases hf x with y | y; exact hc.1 y; exact hc.2 y
    refine ⟨{ st with ctx := fun u => if u = t then some ⟨(levels t h).1, (levels t h).2, colorOf t h, hookOf t h⟩ else st.ctx u }, ?_⟩
    simp [LoggingSpec.events, LoggingSpec.wanted, d1, d2, d3]

/-- LogDebug logs at debug level exactly if its module is enabled. -/
theorem C110_debug (st : State) (t : Nat) (stamp : Bytes) (mod : Nat) (msg : Bytes) (hm : 1 ≤ mod ∧ mod ≤ 8) :
    logDebug st t stamp mod msg = if st.enabled mod then vlog st t stamp 6 msg else some ([], st) := by
  have : 0 < mod ∧ mod < MOD_MAX := by unfold MOD_MAX; omega
  simp [logDebug, moduleEnabled, this]

/-- A module outside the list fails an assertion (LOG_MOD_NONE is 0, LOG_MOD_MAX 9). -/
theorem C110_debug_module_range (st : State) (t : Nat) (stamp : Bytes) (mod : Nat) (msg : Bytes) (hm : mod = 0 ∨ 9 ≤ mod) : logDebug st t stamp mod msg = none := by
  have : ¬(0 < mod ∧ mod < MOD_MAX) := by unfold MOD_MAX; omega
  simp [logDebug, moduleEnabled, this]

example : logDebug State.init 0 [] 0 [104, 105] = none ∧ logDebug State.init 0 [] 9 [104, 105] = none := ⟨C110_debug_module_range _ _ _ _ _ (.inl rfl), C110_debug_module_range _ _ _ _ _ (.inr (by decide))⟩

/-! ## C111: names of levels -/

theorem toLower_eq (c : UInt8) : Str.toLower c = lower c := by
  have e : c - 65 + 97 = c + 32 := by
    apply UInt8.toNat_inj.mp
    simp only [UInt8.toNat_add, UInt8.toNat_sub, UInt8.toNat_ofNat]
    omega
  simp only [Str.toLower, lower, Str.isupper, e, Bool.and_eq_true, decide_eq_true_eq]

theorem equalNI_iff (t : Bytes) : ∀ (s : Bytes), equalNI s t s.length = true ↔ s.map lower <+: t.map lower := by
  intro s
  have : Str.toLower = lower := by funext c; exact toLower_eq c
  unfold equalNI
  rw [this]
  induction s generalizing t with
  | nil => simp [Str.cmpSignN]
  | cons c s ih =>
    cases t with
    | nil => simp [Str.cmpSignN]
    | cons d t =>
      simp only [List.length_cons, Str.cmpSignN, List.map_cons, List.cons_prefix_cons]
      by_cases h : lower c = lower d
      · simp only [h, if_true, true_and]; exact ih t
      · simp only [h, if_false, false_and, iff_false]; split <;> simp

/-- LogLevelFromString returns a level exactly for the non-empty prefixes, in any case, of its name, and otherwise LOG_LEVEL_NOTHING (-1). -/
theorem C111_level_from_string (s : Bytes) (level : Int) (hl : 0 ≤ level ∧ level ≤ 6) :
    levelFromString (some s) = level ↔ s ≠ [] ∧ s.map lower <+: (levelNames.getD level.toNat []).map lower := by
  cases s with
  | nil => simp [levelFromString]; omega
  | cons c cs =>
    simp only [levelFromString, equalNI_iff]
    simp only [List.length_cons, Nat.add_eq_zero_iff, Nat.one_ne_zero, and_false, if_false, List.map_cons, List.cons_prefix_cons, ne_eq, reduceCtorEq, not_false_eq_true, true_and]
    have l0 : lower 67 = 99 := by decide
    have l1 : lower 101 = 101 := by decide
    have l2 : lower 119 = 119 := by decide
    have l3 : lower 110 = 110 := by decide
    have l4 : lower 105 = 105 := by decide
    have l5 : lower 118 = 118 := by decide
    have l6 : lower 100 = 100 := by decide
    generalize hx : lower c = x
    rw [l0, l1, l2, l3, l4, l5, l6]
    rcases int7 hl with h | h | h | h | h | h | h <;> subst h <;>
      simp only [levelNames, List.getD_cons_zero, List.getD_cons_succ, List.map_cons, List.cons_prefix_cons, Int.toNat_zero, Int.toNat_one, Int.reduceToNat, l0, l1, l2, l3, l4, l5, l6] <;>
      constructor <;> intro hh <;> (repeat' split at hh) <;> (repeat' split) <;> simp_all

theorem levelFromString_range (s : Option Bytes) : -1 ≤ levelFromString s ∧ levelFromString s ≤ 6 := by
  unfold levelFromString
  cases s with
  | none => decide
  | some s => simp only; (repeat' split) <;> decide

/-- Anything else is LOG_LEVEL_NOTHING. -/
theorem C111_nothing (s : Option Bytes) : levelFromString s = -1 ↔ s = none ∨ s = some [] ∨ ∃ x, s = some x ∧ ∀ n ∈ levelNames, ¬x.map lower <+: n.map lower := by
  cases s with
  | none => simp [levelFromString]
  | some x =>
    have hr := levelFromString_range (some x)
    simp only [reduceCtorEq, Option.some.injEq, false_or]
    constructor
    · intro h
      by_cases hx : x = []
      · exact .inl hx
      · refine .inr ⟨x, rfl, fun n hn hp => ?_⟩
        obtain ⟨k, hk, rfl⟩ := List.getElem_of_mem hn
        have hk' : k < 7 := hk
        have := (C111_level_from_string x k (by omega)).mpr ⟨hx, by simpa [List.getD_eq_getElem?_getD, hk] using hp⟩
        omega
    · intro h
      refine Classical.byContradiction fun hne => ?_
      have hl : 0 ≤ levelFromString (some x) ∧ levelFromString (some x) ≤ 6 := by omega
      obtain ⟨h1, h2⟩ := (C111_level_from_string x _ hl).mp rfl
      rcases h with h | ⟨y, hy, h⟩
      · exact h1 h
      · rw [← hy] at h
        have hk : (levelFromString (some x)).toNat < levelNames.length := by show _ < 7; omega
        rw [List.getD_eq_getElem?_getD, List.getElem?_eq_getElem hk] at h2
        exact h _ (List.getElem_mem hk) h2

/-- The level argument of a command: any non-empty prefix, in any case, of the name of a level sets the global level and both levels of the calling thread to that level, leaving everything else;
any other argument ends the program. -/
theorem C111_level_argument (st : State) (t : Nat) (arg : Bytes) :
    (∀ level : Int, 0 ≤ level ∧ level ≤ 6 → arg ≠ [] → arg.map lower <+: (levelNames.getD level.toNat []).map lower →
      ∃ st', setGlobalLevelArg st t arg = some st' ∧ st'.global = level ∧ (∀ u, u ≠ t → st'.ctx u = st.ctx u) ∧ st'.enabled = st.enabled ∧ st'.vprefix = st.vprefix ∧ st'.agent = st.agent ∧
        st'.timestamps = st.timestamps ∧
        ∃ c, st'.ctx t = some c ∧ c.log = level ∧ c.report = level ∧ ∀ c0, st.ctx t = some c0 → c.color = c0.color ∧ c.pctx = c0.pctx) ∧
    ((arg = [] ∨ ∀ n ∈ levelNames, ¬arg.map lower <+: n.map lower) → setGlobalLevelArg st t arg = none) := by
  constructor
  · intro level hl hne hp
    have h := (C111_level_from_string arg level hl).mpr ⟨hne, hp⟩
    have hn : level ≠ -1 := by omega
    refine ⟨setGlobalLevel st t level, by simp [setGlobalLevelArg, h, hn], ?_⟩
    cases hc : st.ctx t with
    | none =>
      simp only [setGlobalLevel, privSetLevels, getCtx, hc, setCtx, if_true]
      refine ⟨trivial, fun u hu => by simp [hu], trivial, trivial, trivial, trivial, _, rfl, rfl, rfl, by simp⟩
    | some c =>
      simp only [setGlobalLevel, privSetLevels, getCtx, hc, setCtx, if_true]
      refine ⟨trivial, fun u hu => by simp [hu], trivial, trivial, trivial, trivial, _, rfl, rfl, rfl, fun c0 h0 => by cases h0; exact ⟨rfl, rfl⟩⟩
  · intro h
    have : levelFromString (some arg) = -1 := (C111_nothing (some arg)).mpr (by
      rcases h with h | h
      · exact .inr (.inl (by rw [h]))
      · exact .inr (.inr ⟨arg, rfl, h⟩))
    simp [setGlobalLevelArg, this]

/-- "Verb" and "shout". -/
example : (∃ st', setGlobalLevelArg State.init 0 [86, 101, 114, 98] = some st' ∧ st'.global = 5) ∧ setGlobalLevelArg State.init 0 [115, 104, 111, 117, 116] = none := by
  refine ⟨?_, (C111_level_argument _ _ _).2 (.inr (by decide))⟩
  obtain ⟨st', h1, h2, _⟩ := (C111_level_argument State.init 0 [86, 101, 114, 98]).1 5 (by decide) (by decide) (by decide)
  exact ⟨st', h1, h2⟩

/-- The name printed for a level is read back as that level, in any case. -/
theorem C111_round_trip (level : Int) (hl : 0 ≤ level ∧ level ≤ 6) (s n : Bytes) (hn : levelToString level = some n) (hs : s.map lower = n.map lower) : levelFromString (some s) = level := by
  rw [C111_level_from_string s level hl, hs]
  constructor
  · rintro rfl
    rcases int7 hl with h | h | h | h | h | h | h <;> subst h <;> simp [levelToString] at hn <;> subst hn <;> simp at hs
  · rcases int7 hl with h | h | h | h | h | h | h <;> subst h <;> simp [levelToString] at hn <;> subst hn <;> decide

/-! ## C112: enabling modules -/

theorem cmpSign_id (s t : Bytes) : (Str.cmpSign id s t == 0) = decide (s = t) := by
  have h := Str.cmpSign_spec id s t
  simp only [List.map_id] at h
  rcases h with ⟨h, h2⟩ | ⟨h, h2⟩ | ⟨h, h2⟩
  · rw [h]
    have : s ≠ t := by
      rintro rfl
      have : ∀ s : Bytes, Str.cmpSign id s s = 0 := by intro s; induction s with | nil => rfl | cons a s ih => simp [Str.cmpSign, ih]
      rw [this] at h; simp at h
    simp [this]
  · rw [h]; simp [h2]
  · rw [h]
    have : s ≠ t := by
      rintro rfl
      have : ∀ s : Bytes, Str.cmpSign id s s = 0 := by intro s; induction s with | nil => rfl | cons a s ih => simp [Str.cmpSign, ih]
      rw [this] at h; simp at h
    simp [this]

theorem enableModule_eq (en : Nat → Bool) (k : Nat) (h : k < 9) : enableModule en k = some (fun i => if i = k then true else en i) := by
  simp [enableModule, MOD_MAX, h]

theorem enableToken_spec (en : Nat → Bool) (tok : Bytes) (hh : tok ≠ LoggingSpec.help) :
    ∃ en', enableToken en tok = some (en', if LoggingSpec.unknown tok then [tok] else [], true) ∧ ∀ i, en' i = true ↔ en i = true ∨ (1 ≤ i ∧ i ≤ 8 ∧ LoggingSpec.asks tok i) := by
  have hh' : tok ≠ [104, 101, 108, 112] := hh
  by_cases ha : tok = [97, 108, 108]
  · subst ha
    refine ⟨_, by simp [enableToken, enableFrom, MOD_MAX, enableModule]; exact ⟨rfl, by decide⟩, fun i => ?_⟩
    have hasks : LoggingSpec.asks [97, 108, 108] i := .inl rfl
    simp only [hasks, and_true]
    by_cases h : 1 ≤ i ∧ i ≤ 8
    · have : i = 1 ∨ i = 2 ∨ i = 3 ∨ i = 4 ∨ i = 5 ∨ i = 6 ∨ i = 7 ∨ i = 8 := by omega
      rcases this with h | h | h | h | h | h | h | h <;> subst h <;> simp
    · simp only [h, or_false]
      have h1 : i ≠ 1 := by omega
      have h2 : i ≠ 2 := by omega
      have h3 : i ≠ 3 := by omega
      have h4 : i ≠ 4 := by omega
      have h5 : i ≠ 5 := by omega
      have h6 : i ≠ 6 := by omega
      have h7 : i ≠ 7 := by omega
      have h8 : i ≠ 8 := by omega
      simp [h1, h2, h3, h4, h5, h6, h7, h8]
  · by_cases hm : tok ∈ moduleNames
    · obtain ⟨k, hk, htok⟩ := List.getElem_of_mem hm
      have hk' : k < 8 := hk
      have hkk : ∀ k (hk : k < 8), moduleFromString moduleNames[k] = k + 1 := by decide
      have e1 : moduleFromString tok = k + 1 := by rw [← htok]; exact hkk k hk'
      have hu : LoggingSpec.unknown tok = false := by simp [LoggingSpec.unknown, hm]
      refine ⟨fun i => if i = k + 1 then true else en i, ?_, fun i => ?_⟩
      · simp [enableToken, hh', ha, e1, enableModule_eq en (k + 1) (by omega), hu]
      · have hd : ∀ j (hj : j < 8) k (hk : k < 8), moduleNames[j]? = some moduleNames[k] → j = k := by decide
        have ha' : ¬tok = LoggingSpec.all := ha
        by_cases hi : i = k + 1
        · subst hi; simp [LoggingSpec.asks, htok, hk]; omega
        · simp only [hi, if_false, LoggingSpec.asks, ha', false_or]
          constructor
          · exact .inl
          · rintro (h | ⟨h1, h2, h3⟩)
            · exact h
            · rw [← htok] at h3; have := hd (i - 1) (by omega) k hk' h3; omega
    · have hu : LoggingSpec.unknown tok = true := by
        have : tok ≠ LoggingSpec.all := ha
        simp [LoggingSpec.unknown, hm, hh, this]
      have e1 : moduleFromString tok = 0 := by
        simp only [moduleFromString, cmpSign_id]
        by_cases h0 : tok = []
        · subst h0; decide
        · have : logModules.findIdx? (fun m => decide (m = tok)) = none := by
            rw [List.findIdx?_eq_none_iff]
            intro m hm'
            have : logModules = [] :: moduleNames := by decide
            rw [this] at hm'
            rcases List.mem_cons.mp hm' with rfl | h
            · simp [Ne.symm h0]
            · simp only [decide_eq_false_iff_not]; rintro rfl; exact hm h
          rw [this]; rfl
      refine ⟨en, by simp [enableToken, hh', ha, e1, hu], fun i => ?_⟩
      constructor
      · exact .inl
      · rintro (h | ⟨_, _, h | h⟩)
        · exact h
        · exact absurd h ha
        · exact absurd (List.mem_of_getElem? h) hm

theorem read_at (a : Bytes) (c : UInt8) (b : Bytes) : CMem.read (a ++ c :: b) a.length = some c := by simp [CMem.read]

theorem sepFrom_spec : ∀ (tok pre : Bytes) (c : UInt8) (rest : Bytes) (n : Nat), (∀ x ∈ tok, x ≠ 44 ∧ x ≠ 0) → (c = 44 ∨ c = 0) → tok.length < n →
    sepFrom (pre ++ tok ++ c :: rest) pre.length n = some (pre.length + tok.length) := by
  intro tok
  induction tok with
  | nil =>
    intro pre c rest n _ hc hn
    obtain ⟨n, rfl⟩ : ∃ k, n = k + 1 := ⟨n - 1, by simp at hn; omega⟩
    simp only [sepFrom, List.append_nil, read_at, Option.bind_eq_bind, Option.bind_some, hc, if_true, List.length_nil, Nat.add_zero]
  | cons x tok ih =>
    intro pre c rest n ht hc hn
    obtain ⟨n, rfl⟩ : ∃ k, n = k + 1 := ⟨n - 1, by simp at hn; omega⟩
    have hx := ht x (by simp)
    have hx' : ¬(x = 44 ∨ x = 0) := by simp [hx]
    have := ih (pre ++ [x]) c rest n (fun y hy => ht y (by simp [hy])) hc (by simp at hn; omega)
    simp only [List.append_assoc, List.cons_append, List.nil_append, List.length_append, List.length_cons, List.length_nil, Nat.zero_add] at this ⊢
    simp only [sepFrom, read_at, Option.bind_eq_bind, Option.bind_some, hx', if_false, this]
    congr 1; omega

theorem strAt_spec : ∀ (tok pre rest : Bytes) (n : Nat), (∀ x ∈ tok, x ≠ 0) → tok.length < n → strAt (pre ++ tok ++ 0 :: rest) pre.length n = some tok := by
  intro tok
  induction tok with
  | nil =>
    intro pre rest n _ hn
    obtain ⟨n, rfl⟩ : ∃ k, n = k + 1 := ⟨n - 1, by simp at hn; omega⟩
    simp only [strAt, List.append_nil, read_at, Option.bind_eq_bind, Option.bind_some, if_true]
  | cons x tok ih =>
    intro pre rest n ht hn
    obtain ⟨n, rfl⟩ : ∃ k, n = k + 1 := ⟨n - 1, by simp at hn; omega⟩
    have hx : ¬x = 0 := ht x (by simp)
    have := ih (pre ++ [x]) rest n (fun y hy => ht y (by simp [hy])) (by simp at hn; omega)
    simp only [List.append_assoc, List.cons_append, List.nil_append, List.length_append, List.length_cons, List.length_nil, Nat.zero_add] at this ⊢
    simp only [strAt, read_at, Option.bind_eq_bind, Option.bind_some, hx, if_false, this]

theorem write_at (a : Bytes) (c d : UInt8) (b : Bytes) : CMem.write (a ++ c :: b) a.length d = some (a ++ d :: b) := by
  simp [CMem.write]

/-- The tokens joined by commas. -/
def joined (ts : List Bytes) : Bytes := List.intercalate [44] ts

theorem joined_cons (t u : Bytes) (ts : List Bytes) : joined (t :: u :: ts) = t ++ 44 :: joined (u :: ts) := by
  simp [joined, List.intercalate, List.intersperse]

theorem enableLoop_spec : ∀ (ts : List Bytes) (en : Nat → Bool) (pre rest : Bytes) (n : Nat), ts ≠ [] → (∀ t ∈ ts, ∀ x ∈ t, x ≠ 44 ∧ x ≠ 0) → ts.length ≤ n →
    ∃ en', enableLoop en (pre ++ joined ts ++ 0 :: rest) pre.length n = some (en', (ts.takeWhile (· != LoggingSpec.help)).filter LoggingSpec.unknown, decide (LoggingSpec.help ∉ ts), pre ++ joined ts ++ 0 :: rest) ∧
      ∀ i, en' i = true ↔ en i = true ∨ (1 ≤ i ∧ i ≤ 8 ∧ ∃ t ∈ ts.takeWhile (· != LoggingSpec.help), LoggingSpec.asks t i) := by
  intro ts
  induction ts with
  | nil => intro en pre rest n h; exact absurd rfl h
  | cons t ts ih =>
    intro en pre rest n _ ht hn
    obtain ⟨n, rfl⟩ : ∃ k, n = k + 1 := ⟨n - 1, by simp at hn; omega⟩
    have ht0 : ∀ x ∈ t, x ≠ 44 ∧ x ≠ 0 := ht t (by simp)
    -- the separator behind the first token
    obtain ⟨c, tail, hm, hc, hcs⟩ : ∃ c tail, pre ++ joined (t :: ts) ++ 0 :: rest = (pre ++ t) ++ c :: tail ∧ (c = 44 ∨ c = 0) ∧
        ((ts = [] ∧ c = 0) ∨ (ts ≠ [] ∧ c = 44 ∧ tail = joined ts ++ 0 :: rest)) := by
      cases ts with
      | nil => exact ⟨0, rest, by simp [joined], .inr rfl, .inl ⟨rfl, rfl⟩⟩
      | cons u us => exact ⟨44, joined (u :: us) ++ 0 :: rest, by rw [joined_cons]; simp, .inl rfl, .inr ⟨by simp, rfl, rfl⟩⟩
    rw [hm]
    have hsep := sepFrom_spec t pre c tail ((pre ++ t ++ c :: tail).length + 1) ht0 hc (by simp; omega)
    have hrd := read_at (pre ++ t) c tail
    have hw1 := write_at (pre ++ t) c 0 tail
    have hstr := strAt_spec t pre tail ((pre ++ t ++ 0 :: tail).length + 1) (fun x hx => (ht0 x hx).2) (by simp; omega)
    have hw2 := write_at (pre ++ t) 0 c tail
    rw [List.length_append] at hrd hw1 hw2
    simp only [enableLoop, hsep, Option.bind_eq_bind, Option.bind_some, hrd, hw1, hstr]
    by_cases hh : t = LoggingSpec.help
    · have e : enableToken en t = some (en, [], false) := by rw [hh]; rfl
      refine ⟨en, ?_, fun i => ?_⟩
      · simp only [e, Option.bind_some, hw2]
        simp [hh]
      · simp [hh]
    · obtain ⟨en1, e, h1⟩ := enableToken_spec en t hh
      have htw : (t :: ts).takeWhile (· != LoggingSpec.help) = t :: ts.takeWhile (· != LoggingSpec.help) := by simp [hh]
      rcases hcs with ⟨rfl, rfl⟩ | ⟨hne, rfl, rfl⟩
      · refine ⟨en1, ?_, fun i => ?_⟩
        · simp only [e, Option.bind_some, hw2]
          simp [hh, Ne.symm hh, List.filter_cons]
        · rw [h1]; simp [hh]
      · obtain ⟨en2, e2, h2⟩ := ih en1 (pre ++ t ++ [44]) rest n hne (fun u hu => ht u (by simp [hu])) (by simp at hn; omega)
        have hl : (pre ++ t ++ [44]).length = pre.length + t.length + 1 := by simp; omega
        rw [hl] at e2
        have hm2 : pre ++ t ++ [44] ++ joined ts ++ 0 :: rest = pre ++ t ++ 44 :: (joined ts ++ 0 :: rest) := by simp
        rw [hm2] at e2
        refine ⟨en2, ?_, fun i => ?_⟩
        · simp only [e, Option.bind_some, hw2, ne_eq, show ¬((44 : UInt8) = 0) by decide, not_false_eq_true, and_self, if_true, e2, htw, Option.some.injEq, Prod.mk.injEq, true_and]
          refine ⟨?_, ?_, trivial⟩
          · rw [List.filter_cons]; split <;> simp
          · simp [Ne.symm hh]
        · rw [h2, h1, htw]
          simp only [List.mem_cons, exists_eq_or_imp, and_or_left, or_assoc]

/-- For every comma-separated list (every string is one): the modules named, or all for "all", are enabled and no other's setting changes, up to a token "help", which makes it return false; the tokens
nobody knows are warned about, in order; the string is as before. -/
theorem C112_enable_modules (en : Nat → Bool) (ts : List Bytes) (rest : Bytes) (h : ts ≠ []) (ht : ∀ t ∈ ts, ∀ x ∈ t, x ≠ 44 ∧ x ≠ 0) :
    ∃ en', enableModulesFromString en (joined ts ++ 0 :: rest) =
        some (en', (ts.takeWhile (· != LoggingSpec.help)).filter LoggingSpec.unknown, decide (LoggingSpec.help ∉ ts), joined ts ++ 0 :: rest) ∧
      ∀ i, en' i = true ↔ en i = true ∨ (1 ≤ i ∧ i ≤ 8 ∧ ∃ t ∈ ts.takeWhile (· != LoggingSpec.help), LoggingSpec.asks t i) := by
  have hlen : ∀ ts : List Bytes, ts.length ≤ (joined ts).length + 1 := by
    intro ts
    induction ts with
    | nil => simp
    | cons t ts ih =>
      cases ts with
      | nil => simp
      | cons u us => rw [joined_cons]; simp only [List.length_cons, List.length_append] at ih ⊢; omega
  have := enableLoop_spec ts en [] rest ((joined ts ++ 0 :: rest).length + 1) h ht (by have := hlen ts; simp; omega)
  simpa [enableModulesFromString] using this

/-- Every string without NUL is such a list, in one way. -/
theorem C112_every_string_is_a_list (s : Bytes) (h : 0 ∉ s) : ∃ ts, ts ≠ [] ∧ (∀ t ∈ ts, ∀ x ∈ t, x ≠ 44 ∧ x ≠ 0) ∧ joined ts = s := by
  induction s with
  | nil => exact ⟨[[]], by simp, by simp, rfl⟩
  | cons c s ih =>
    simp only [List.mem_cons, not_or] at h
    obtain ⟨ts, h1, h2, h3⟩ := ih h.2
    obtain ⟨t, us, rfl⟩ := List.exists_cons_of_ne_nil h1
    by_cases hc : c = 44
    · refine ⟨[] :: t :: us, by simp, ?_, by rw [joined_cons, h3, hc]; rfl⟩
      intro x hx
      rcases List.mem_cons.mp hx with rfl | hx
      · simp
      · exact h2 x hx
    · refine ⟨(c :: t) :: us, by simp, ?_, ?_⟩
      · intro x hx
        rcases List.mem_cons.mp hx with rfl | hx
        · intro y hy
          rcases List.mem_cons.mp hy with rfl | hy
          · exact ⟨hc, Ne.symm h.1⟩
          · exact h2 t (by simp) y hy
        · exact h2 x (by simp [hx])
      · rw [← h3]
        cases us with
        | nil => simp [joined]
        | cons u us => rw [joined_cons, joined_cons]; rfl

/-! ## C113: readable byte counts -/

/-- The value and unit printed are the count rounded down to the unit; the unit is the largest of which the count is more than eight. -/
theorem C113_byte_counts (n : Int) : ∃ u ∈ LoggingSpec.units, byteUnit n = u.2 ∧ (0 ≤ n → byteMagnitude n * u.1 ≤ n ∧ n < (byteMagnitude n + 1) * u.1) ∧ (n < 0 → u.1 = 1 ∧ byteMagnitude n = n) ∧
    (1 < u.1 → 8 * u.1 < n) ∧ ∀ w ∈ LoggingSpec.units, u.1 < w.1 → n ≤ 8 * w.1 := by
  have hu : ∀ (k : Int), 0 < k → 0 ≤ n → n.tdiv k * k ≤ n ∧ n < (n.tdiv k + 1) * k := by
    intro k hk hn
    rw [Int.tdiv_eq_ediv_of_nonneg hn]
    have h1 := Int.mul_ediv_add_emod n k
    have h2 := Int.emod_nonneg n (by omega : k ≠ 0)
    have h3 := Int.emod_lt_of_pos n hk
    rw [Int.add_mul, Int.mul_comm]
    constructor <;> omega
  simp only [byteUnit, byteMagnitude, LoggingSpec.units, List.mem_cons, List.not_mem_nil, or_false, exists_eq_or_imp, exists_eq_left, forall_eq_or_imp, forall_eq, Int.reduceMul, Int.reducePow]
  by_cases h1 : n > 8589934592
  · have := hu 1073741824 (by decide) (by omega)
    simp only [h1, if_true]
    refine .inr (.inr (.inr ⟨trivial, fun _ => this, fun h => absurd h (by omega), ?_, ?_⟩)) <;> simp <;> omega
  · by_cases h2 : n > 8388608
    · have := hu 1048576 (by decide) (by omega)
      simp only [h1, h2, if_true, if_false]
      refine .inr (.inr (.inl ⟨trivial, fun _ => this, fun h => absurd h (by omega), ?_, ?_⟩)) <;> simp <;> omega
    · by_cases h3 : n > 8192
      · have := hu 1024 (by decide) (by omega)
        simp only [h1, h2, h3, if_true, if_false]
        refine .inr (.inl ⟨trivial, fun _ => this, fun h => absurd h (by omega), ?_, ?_⟩) <;> simp <;> omega
      · simp only [h1, h2, h3, if_false]
        refine .inl ⟨trivial, by omega, fun _ => ⟨trivial, trivial⟩, by omega, ?_⟩; refine ⟨?_, ?_, ?_, ?_⟩ <;> omega

/-! ## The hypotheses can be met -/

/-- Thread 1 makes its console verbose; then thread 2 sets the global level to error. -/
def demo : History := [(2, .setGlobal 1), (1, .setLevels 3 5)]

/-- Thread 1 still gets information on its console and not in syslog; thread 3, which begins now, does not log warnings. -/
example : levels 1 demo = (3, 5) ∧ levels 2 demo = (1, 1) ∧ levels 3 demo = (1, 1) ∧ (∃ st, run [] [] false demo = some st) := ⟨by decide, by decide, by decide, _, rfl⟩

/-- The line of thread 1: "    info: a". -/
example : ∃ st st', run [] [] false demo = some st ∧ vlog st 1 [] 4 [97, 10] = some ([.console [32, 32, 32, 32, 105, 110, 102, 111, 58, 32, 97, 10]], st') := ⟨_, _, rfl, rfl⟩

/-- "iNf" is information; "x" nothing. -/
example : levelFromString (some [105, 78, 102]) = 4 ∧ levelFromString (some [120]) = -1 :=
  ⟨(C111_level_from_string _ 4 (by decide)).mpr ⟨by decide, by decide⟩, (C111_nothing _).mpr (.inr (.inr ⟨_, rfl, by decide⟩))⟩

/-- "ERROR" is read back. -/
example : levelFromString (some [69, 82, 82, 79, 82]) = 1 := C111_round_trip 1 (by decide) _ _ rfl (by decide)

/-- "ps,x,,help,vars": ps is enabled, "x" and "" are warned about, vars is not enabled. -/
example : ∃ en', enableModulesFromString (fun _ => false) ([112, 115, 44, 120, 44, 44, 104, 101, 108, 112, 44, 118, 97, 114, 115] ++ [0]) =
    some (en', [[120], []], false, [112, 115, 44, 120, 44, 44, 104, 101, 108, 112, 44, 118, 97, 114, 115] ++ [0]) ∧ en' 8 = true ∧ en' 6 = false := by
  obtain ⟨en', e, h⟩ := C112_enable_modules (fun _ => false) [[112, 115], [120], [], [104, 101, 108, 112], [118, 97, 114, 115]] [] (by decide) (by decide)
  refine ⟨en', e, (h 8).mpr (.inr ⟨by decide, by decide, [112, 115], by decide, .inr (by decide)⟩), ?_⟩
  refine Bool.eq_false_iff.mpr fun h6 => ?_
  rcases (h 6).mp h6 with h | ⟨_, _, t, ht, h⟩
  · simp at h
  · have : ∀ t ∈ List.takeWhile (· != LoggingSpec.help) [[112, 115], [120], [], [104, 101, 108, 112], [118, 97, 114, 115]], t ≠ LoggingSpec.all ∧ moduleNames[6 - 1]? ≠ some t := by decide
    rcases h with h | h
    · exact (this t ht).1 h
    · exact (this t ht).2 h

/-- 10000 bytes are "9 KiB". -/
example : byteMagnitude 10000 = 9 ∧ byteUnit 10000 = [75, 105, 66] := by decide

/-! ## Findings -/

/-- A thread with a hook that wants every message up to debug, and levels of critical only. -/
def hookDemo : History := [(1, .setLevels 0 0), (1, .setHook (some ⟨some fun _ m => m, 6⟩))]

/-- LogRaw looks at the two levels only: the hook that WouldLog speaks for is not called, although Log would call it. -/
theorem C110_raw_skips_the_hook_negated : ∃ st st1 st2, run [] [] false hookDemo = some st ∧ (wouldLog st 1 3).1 = true ∧
    vlog st 1 [] 3 [97, 98] = some ([.hooked 3 [97, 98]], st1) ∧ logRaw st 1 [] 3 [97] [98] 1 = some ([], st2) := ⟨_, _, _, rfl, rfl, rfl, rfl⟩

/-- LOG_LEVEL_NOTHING (what LogLevelFromString returns for an unknown name) is more important than every level: WouldLog says yes, and Log ends the program instead of logging nothing. -/
theorem C110_nothing_ends_the_program_negated (v a : Bytes) (ts : Bool) (h : History) (st : State) (hr : run v a ts h = some st) (t : Nat) (hL : -1 ≤ (levels t h).2) (stamp msg : Bytes) :
    (wouldLog st t (-1)).1 = true ∧ vlog st t stamp (-1) msg = none := by
  have hg := getCtx_eq st h (run_rep v a ts h st hr).1 t
  constructor
  · simp [wouldLog, hg, logToConsole, hL]
  · simp only [vlog, hg, logToConsole, hL, decide_true, Bool.not_true, Bool.false_and, Bool.false_eq_true, if_false, consoleEvents, if_true]
    have : ∀ st' m c, toConsole st' stamp m (-1) c = none := by intro st' m c; cases c <;> simp [toConsole, levelToString, levelToColor]
    simp [this]

/-- "vars,help": the module before "help" has been enabled when false is returned. -/
theorem C112_help_after_others_negated : ∃ en', enableModulesFromString (fun _ => false) [118, 97, 114, 115, 44, 104, 101, 108, 112, 0] = some (en', [], false, [118, 97, 114, 115, 44, 104, 101, 108, 112, 0]) ∧ en' 6 = true :=
  ⟨_, rfl, rfl⟩

end Logging
