import Verif.Spec.LogThreads
import Mathlib.Tactic.Tauto
/-! # C180: logging by several threads at once -/
namespace LogThreadsSpec
open Logging (Bytes Event levelToString levelToColor pad8 dropEol syslogPriority)
open LogThreads

/-! ## One message -/

theorem dropEol_eq (m : Bytes) : dropEol m = body m := by
  induction m with
  | nil => rfl
  | cons c m ih =>
    cases m with
    | nil => by_cases h : c = 10 <;> simp [dropEol, body, h]
    | cons d m =>
      rw [dropEol, ih]
      unfold body
      rw [List.getLast?_cons_cons]
      split <;> rfl

theorem level_cases (l : Int) (h : 0 ≤ l ∧ l ≤ 6) : l = 0 ∨ l = 1 ∨ l = 2 ∨ l = 3 ∨ l = 4 ∨ l = 5 ∨ l = 6 := by omega

theorem pieces_eq (cfg : Cfg) (c : Ctx) (stamp : Bytes) (l : Int) (m : Bytes) (h : 0 ≤ l ∧ l ≤ 6) :
    pieces cfg c stamp l m = some (message cfg c.log c.report c.color stamp l m) := by
  have h1 : consolePieces cfg stamp l (dropEol m) c.color = some (console cfg c.color stamp l m) := by
    rw [dropEol_eq]
    unfold consolePieces console line
    rcases level_cases l h with rfl | rfl | rfl | rfl | rfl | rfl | rfl <;> cases c.color <;>
      simp [levelToColor, levelToString, pad8, title]
  have h2 : syslogPiece cfg l (dropEol m) = some (.syslog (if l = 6 then 7 else l.toNat + 2)
    (([67, 70, 69, 110, 103, 105, 110, 101, 40] ++ cfg.agent ++ [41, 32] ++ cfg.vprefix ++ [32] ++ body m ++ [10]).take 4095)) := by
    rw [dropEol_eq]
    unfold syslogPiece
    rcases level_cases l h with rfl | rfl | rfl | rfl | rfl | rfl | rfl <;> simp [syslogPriority]
  unfold pieces message system
  rw [h1, h2]
  by_cases a : l ≤ c.report <;> by_cases b : l ≤ c.log ∧ l < 5 <;> simp [a, b]

/-! ## The output still to come -/

abbrev tri (c : Ctx) : Int × Int × Bool := (c.log, c.report, c.color)

/-- What a thread in this state can still write. -/
def Rem (cfg : Cfg) (G : Int → Prop) (prog : List Call) : (Int × Int) → Option Ctx → List Act → List Event → Prop
  | _, c, [], out => Alone cfg G (c.map tri) prog out
  | f, c, .get :: as, out =>
    match c with
    | none => ∃ g1 g2, G g1 ∧ G g2 ∧ Rem cfg G prog (g1, g2) (some ⟨g1, g2, false⟩) as out
    | some c => Rem cfg G prog f (some c) as out
  | f, c, .readLog :: as, out => ∃ g, G g ∧ Rem cfg G prog (g, f.2) c as out
  | f, c, .readReport :: as, out => ∃ g, G g ∧ Rem cfg G prog (f.1, g) c as out
  | f, _, .publish :: as, out => Rem cfg G prog f (some ⟨f.1, f.2, false⟩) as out
  | f, c, .setGlobal _ :: as, out => Rem cfg G prog f c as out
  | f, c, .levels a b :: as, out => ∃ x, c = some x ∧ Rem cfg G prog f (some ⟨a, b, x.color⟩) as out
  | f, c, .color b :: as, out => ∃ x, c = some x ∧ Rem cfg G prog f (some ⟨x.log, x.report, b⟩) as out
  | f, _, .free :: as, out => Rem cfg G prog f none as out
  | f, c, .choose s l m :: as, out => ∃ x r, c = some x ∧ out = message cfg x.log x.report x.color s l m ++ r ∧ Rem cfg G prog f c as r
  | f, c, .emit e :: as, out => ∃ r, out = e :: r ∧ Rem cfg G prog f c as r

theorem rem_emits (cfg : Cfg) (G : Int → Prop) (prog : List Call) (f : Int × Int) (c : Option Ctx) (as : List Act) (es : List Event) :
    ∀ out, Rem cfg G prog f c (es.map .emit ++ as) out → ∃ r, out = es ++ r ∧ Rem cfg G prog f c as r := by
  induction es with
  | nil => intro out h; exact ⟨out, rfl, h⟩
  | cons e es ih =>
    intro out h
    simp only [List.map_cons, List.cons_append, Rem] at h
    obtain ⟨r, rfl, h⟩ := h
    obtain ⟨r', rfl, h2⟩ := ih r h
    exact ⟨r', rfl, h2⟩

theorem rem_start (cfg : Cfg) (G : Int → Prop) (c : Call) (cs : List Call) (f : Int × Int) (x : Option Ctx) (out : List Event)
    (h : Rem cfg G cs f x (start c) out) : Alone cfg G (x.map tri) (c :: cs) out := by
  cases x with
  | none =>
    cases c with
    | setGlobal l =>
      simp only [start, Rem] at h
      obtain ⟨g1, g2, h1, h2, y, hy, h⟩ := h
      cases hy
      exact .first _ g1 g2 _ h1 h2 (.setGlobal _ _ _ _ _ _ h)
    | setLevels a b =>
      simp only [start, Rem] at h
      obtain ⟨g1, g2, h1, h2, y, hy, h⟩ := h
      cases hy
      exact .first _ g1 g2 _ h1 h2 (.setLevels _ _ _ _ _ _ _ h)
    | setColor b =>
      simp only [start, Rem] at h
      obtain ⟨g1, g2, h1, h2, y, hy, h⟩ := h
      cases hy
      exact .first _ g1 g2 _ h1 h2 (.setColor _ _ _ _ _ _ h)
    | free => exact .free _ _ _ h
    | log s l m =>
      simp only [start, Rem] at h
      obtain ⟨g1, g2, h1, h2, y, r, hy, rfl, h⟩ := h
      cases hy
      exact .first _ g1 g2 _ h1 h2 (.log _ _ _ _ _ _ _ _ h)
  | some x =>
    cases c with
    | setGlobal l =>
      simp only [start, Rem] at h
      obtain ⟨y, hy, h⟩ := h
      cases hy
      exact .setGlobal _ _ _ _ _ _ h
    | setLevels a b =>
      simp only [start, Rem] at h
      obtain ⟨y, hy, h⟩ := h
      cases hy
      exact .setLevels _ _ _ _ _ _ _ h
    | setColor b =>
      simp only [start, Rem] at h
      obtain ⟨y, hy, h⟩ := h
      cases hy
      exact .setColor _ _ _ _ _ _ h
    | free => exact .free _ _ _ h
    | log s l m =>
      simp only [start, Rem] at h
      obtain ⟨y, r, hy, rfl, h⟩ := h
      cases hy
      exact .log _ _ _ _ _ _ _ _ h

/-- Calls and steps only set global levels in `G` and have valid levels; steps that need a context have one. -/
def GoodCall (G : Int → Prop) : Call → Prop
  | .setGlobal l => G l
  | .log _ l _ => 0 ≤ l ∧ l ≤ 6
  | _ => True

def GoodAct (G : Int → Prop) : Act → Prop
  | .setGlobal l => G l
  | .choose _ l _ => 0 ≤ l ∧ l ≤ 6
  | _ => True

def Ready : Bool → List Act → Prop
  | _, [] => True
  | _, .get :: as => Ready true as
  | _, .publish :: as => Ready true as
  | c, .levels _ _ :: as => c = true ∧ Ready c as
  | c, .color _ :: as => c = true ∧ Ready c as
  | c, .choose _ _ _ :: as => c = true ∧ Ready c as
  | _, .free :: as => Ready false as
  | c, .readLog :: as => Ready c as
  | c, .readReport :: as => Ready c as
  | c, .setGlobal _ :: as => Ready c as
  | c, .emit _ :: as => Ready c as

structure Good (G : Int → Prop) (x : Thread) : Prop where
  prog : ∀ c ∈ x.prog, GoodCall G c
  acts : ∀ a ∈ x.acts, GoodAct G a
  ready : Ready x.ctx.isSome x.acts

def Inv (G : Int → Prop) (s : St) : Prop := G s.global ∧ ∀ t, Good G (s.th t)

theorem ready_emits (es : List Event) (c : Bool) (as : List Act) (h : Ready c as) : Ready c (es.map .emit ++ as) := by
  induction es with
  | nil => exact h
  | cons e es ih => exact ih

theorem inv_put (G : Int → Prop) (s : St) (t : Nat) (x : Thread) (h : Inv G s) (hx : Good G x) : Inv G (put s t x) := by
  refine ⟨h.1, fun u => ?_⟩
  show Good G (if u = t then x else s.th u)
  split
  · exact hx
  · exact h.2 u

theorem start_good (G : Int → Prop) (c : Call) (h : GoodCall G c) (b : Bool) : (∀ a ∈ start c, GoodAct G a) ∧ Ready b (start c) := by
  cases c <;> simp [start, Ready, GoodAct] <;> exact h

/-- The effect of a step of `t` on the state and the output. -/
theorem step_ok (cfg : Cfg) (G : Int → Prop) (s : St) (t : Nat) (h : Inv G s) :
    ∃ s', step cfg s t = some s' ∧ Inv G s' ∧ (∀ u, u ≠ t → s'.th u = s.th u) ∧
      ∃ new, s'.out = s.out ++ new.map (t, ·) ∧
        ∀ r, Rem cfg G (s'.th t).prog (s'.th t).fresh (s'.th t).ctx (s'.th t).acts r →
          Rem cfg G (s.th t).prog (s.th t).fresh (s.th t).ctx (s.th t).acts (new ++ r) := by
  have hg := h.2 t
  have hG := h.1
  unfold step
  generalize hx : s.th t = x at hg
  obtain ⟨prog, acts, ctx, fresh⟩ := x
  have other : ∀ y u, u ≠ t → (put s t y).th u = s.th u := fun y u hu => by simp [put, hu]
  have same : ∀ y, (put s t y).th t = y := fun y => by simp [put]
  cases acts with
  | nil =>
    cases prog with
    | nil => exact ⟨s, rfl, h, fun _ _ => rfl, [], by simp, fun r hr => by rw [hx] at hr; exact hr⟩
    | cons c cs =>
      have hc := hg.prog c (by simp)
      refine ⟨_, rfl, inv_put G s t _ h ⟨fun d hd => hg.prog d (List.mem_cons_of_mem _ hd), (start_good G c hc true).1, (start_good G c hc _).2⟩, other _, [], by simp [put], fun r hr => ?_⟩
      rw [same] at hr
      exact rem_start cfg G c cs fresh ctx r hr
  | cons a as =>
    have has : ∀ b ∈ as, GoodAct G b := fun b hb => hg.acts b (List.mem_cons_of_mem _ hb)
    have ha := hg.acts a (by simp)
    have hr0 := hg.ready
    cases a with
    | get =>
      cases ctx with
      | none =>
        refine ⟨_, rfl, inv_put G s t _ h ⟨hg.prog, ?_, ?_⟩, other _, [], by simp [put], fun r hr => ?_⟩
        · intro b hb
          simp only [List.mem_cons] at hb
          rcases hb with rfl | rfl | rfl | hb
          · trivial
          · trivial
          · trivial
          · exact has b hb
        · exact hr0
        · rw [same] at hr
          simp only [Rem] at hr
          obtain ⟨g1, h1, g2, h2, hr⟩ := hr
          exact ⟨g1, g2, h1, h2, hr⟩
      | some c =>
        refine ⟨_, rfl, inv_put G s t _ h ⟨hg.prog, has, hr0⟩, other _, [], by simp [put], fun r hr => ?_⟩
        rw [same] at hr
        exact hr
    | readLog =>
      refine ⟨_, rfl, inv_put G s t _ h ⟨hg.prog, has, hr0⟩, other _, [], by simp [put], fun r hr => ?_⟩
      rw [same] at hr
      exact ⟨s.global, hG, hr⟩
    | readReport =>
      refine ⟨_, rfl, inv_put G s t _ h ⟨hg.prog, has, hr0⟩, other _, [], by simp [put], fun r hr => ?_⟩
      rw [same] at hr
      exact ⟨s.global, hG, hr⟩
    | publish =>
      refine ⟨_, rfl, inv_put G s t _ h ⟨hg.prog, has, hr0⟩, other _, [], by simp [put], fun r hr => ?_⟩
      rw [same] at hr
      exact hr
    | setGlobal l =>
      refine ⟨_, rfl, ⟨ha, (inv_put G s t ⟨prog, as, ctx, fresh⟩ h ⟨hg.prog, has, hr0⟩).2⟩, other _, [], by simp [put], fun r hr => ?_⟩
      have : ({ put s t { prog := prog, acts := as, ctx := ctx, fresh := fresh } with global := l } : St).th t = { prog := prog, acts := as, ctx := ctx, fresh := fresh } := same _
      rw [this] at hr
      exact hr
    | levels a b =>
      cases ctx with
      | none => exact absurd hr0.1 (by simp)
      | some c =>
        refine ⟨_, rfl, inv_put G s t _ h ⟨hg.prog, has, hr0.2⟩, other _, [], by simp [put], fun r hr => ?_⟩
        rw [same] at hr
        exact ⟨c, rfl, hr⟩
    | color b =>
      cases ctx with
      | none => exact absurd hr0.1 (by simp)
      | some c =>
        refine ⟨_, rfl, inv_put G s t _ h ⟨hg.prog, has, hr0.2⟩, other _, [], by simp [put], fun r hr => ?_⟩
        rw [same] at hr
        exact ⟨c, rfl, hr⟩
    | free =>
      refine ⟨_, rfl, inv_put G s t _ h ⟨hg.prog, has, hr0⟩, other _, [], by simp [put], fun r hr => ?_⟩
      rw [same] at hr
      exact hr
    | choose st l m =>
      cases ctx with
      | none => exact absurd hr0.1 (by simp)
      | some c =>
        refine ⟨put s t { prog := prog, acts := (message cfg c.log c.report c.color st l m).map .emit ++ as, ctx := some c, fresh := fresh }, ?_, inv_put G s t _ h ⟨hg.prog, ?_, ?_⟩, other _, [], by simp [put], fun r hr => ?_⟩
        · simp [pieces_eq cfg c st l m ha]
        · intro b hb
          simp only [List.mem_append, List.mem_map] at hb
          rcases hb with ⟨e, _, rfl⟩ | hb
          · trivial
          · exact has b hb
        · exact ready_emits _ _ _ hr0.2
        · rw [same] at hr
          obtain ⟨r', e, hr⟩ := rem_emits cfg G prog fresh (some c) as _ r hr
          exact ⟨c, r', rfl, e, hr⟩
    | emit e =>
      refine ⟨_, rfl, ⟨hG, (inv_put G s t ⟨prog, as, ctx, fresh⟩ h ⟨hg.prog, has, hr0⟩).2⟩, other _, [e], by simp, fun r hr => ?_⟩
      have : ({ put s t { prog := prog, acts := as, ctx := ctx, fresh := fresh } with out := s.out ++ [(t, e)] } : St).th t = { prog := prog, acts := as, ctx := ctx, fresh := fresh } := same _
      rw [this] at hr
      exact ⟨r, rfl, hr⟩

theorem by_append (t : Nat) (a b : List (Nat × Event)) : by' t (a ++ b) = by' t a ++ by' t b := by simp [by']
theorem by_self (t : Nat) (es : List Event) : by' t (es.map (t, ·)) = es := by
  induction es with
  | nil => rfl
  | cons e es ih => simp only [by', List.map_cons] at ih ⊢; simp [ih]
theorem by_other (t u : Nat) (h : u ≠ t) (es : List Event) : by' u (es.map (t, ·)) = [] := by
  induction es with
  | nil => rfl
  | cons e es ih => simp only [by', List.map_cons] at ih ⊢; simp [ih, Ne.symm h]

theorem run_ok (cfg : Cfg) (G : Int → Prop) (sched : List Nat) : ∀ s, Inv G s →
    ∃ s', run cfg sched s = some s' ∧ Inv G s' ∧ ∀ t, ∃ new, by' t s'.out = by' t s.out ++ new ∧
      ∀ r, Rem cfg G (s'.th t).prog (s'.th t).fresh (s'.th t).ctx (s'.th t).acts r →
        Rem cfg G (s.th t).prog (s.th t).fresh (s.th t).ctx (s.th t).acts (new ++ r) := by
  induction sched with
  | nil => intro s h; exact ⟨s, rfl, h, fun t => ⟨[], by simp, fun r hr => hr⟩⟩
  | cons u sched ih =>
    intro s h
    obtain ⟨s1, e1, h1, ho, new, hout, hrem⟩ := step_ok cfg G s u h
    obtain ⟨s2, e2, h2, hall⟩ := ih s1 h1
    refine ⟨s2, by simp [run, e1, e2], h2, fun t => ?_⟩
    obtain ⟨n2, hn2, hr2⟩ := hall t
    by_cases ht : t = u
    · subst ht
      refine ⟨new ++ n2, by rw [hn2, hout, by_append, by_self, List.append_assoc], fun r hr => ?_⟩
      rw [List.append_assoc]
      exact hrem _ (hr2 r hr)
    · refine ⟨n2, by rw [hn2, hout, by_append, by_other u t ht, List.append_nil], fun r hr => ?_⟩
      have := hr2 r hr
      rwa [ho t ht] at this

theorem alone_total (cfg : Cfg) (G : Int → Prop) (g : Int) (hg : G g) (cs : List Call) : ∀ c, ∃ out, Alone cfg G c cs out := by
  induction cs with
  | nil => exact fun c => ⟨[], .done c⟩
  | cons a cs ih =>
    have some_case : ∀ c : Int × Int × Bool, ∃ out, Alone cfg G (some c) (a :: cs) out := by
      rintro ⟨x, y, z⟩
      cases a with
      | setGlobal l => obtain ⟨o, h⟩ := ih (some (l, l, z)); exact ⟨o, .setGlobal _ _ _ _ _ _ h⟩
      | setLevels p q => obtain ⟨o, h⟩ := ih (some (p, q, z)); exact ⟨o, .setLevels _ _ _ _ _ _ _ h⟩
      | setColor b => obtain ⟨o, h⟩ := ih (some (x, y, b)); exact ⟨o, .setColor _ _ _ _ _ _ h⟩
      | free => obtain ⟨o, h⟩ := ih none; exact ⟨o, .free _ _ _ h⟩
      | log s l m => obtain ⟨o, h⟩ := ih (some (x, y, z)); exact ⟨_, .log _ _ _ _ _ _ _ _ h⟩
    intro c
    cases c with
    | some c => exact some_case c
    | none => obtain ⟨o, h⟩ := some_case (g, g, false); exact ⟨o, .first _ g g _ hg hg h⟩

theorem rem_total (cfg : Cfg) (G : Int → Prop) (g : Int) (hg : G g) (prog : List Call) (as : List Act) : ∀ f (c : Option Ctx), Ready c.isSome as →
    ∃ out, Rem cfg G prog f c as out := by
  induction as with
  | nil => intro f c _; exact alone_total cfg G g hg prog _
  | cons a as ih =>
    intro f c h
    cases a with
    | get =>
      cases c with
      | none => obtain ⟨o, ho⟩ := ih (g, g) (some ⟨g, g, false⟩) h; exact ⟨o, g, g, hg, hg, ho⟩
      | some c => exact ih f (some c) h
    | readLog => obtain ⟨o, ho⟩ := ih (g, f.2) c h; exact ⟨o, g, hg, ho⟩
    | readReport => obtain ⟨o, ho⟩ := ih (f.1, g) c h; exact ⟨o, g, hg, ho⟩
    | publish => exact ih f (some ⟨f.1, f.2, false⟩) h
    | setGlobal l => exact ih f c h
    | levels x y =>
      cases c with
      | none => exact absurd h.1 (by simp)
      | some c => obtain ⟨o, ho⟩ := ih f (some ⟨x, y, c.color⟩) h.2; exact ⟨o, c, rfl, ho⟩
    | color b =>
      cases c with
      | none => exact absurd h.1 (by simp)
      | some c => obtain ⟨o, ho⟩ := ih f (some ⟨c.log, c.report, b⟩) h.2; exact ⟨o, c, rfl, ho⟩
    | free => exact ih f none h
    | choose s l m =>
      cases c with
      | none => exact absurd h.1 (by simp)
      | some c => obtain ⟨o, ho⟩ := ih f (some c) h.2; exact ⟨_, c, o, rfl, rfl, ho⟩
    | emit e => obtain ⟨o, ho⟩ := ih f c h; exact ⟨_, o, rfl, ho⟩

theorem inv_init (prog : Nat → List Call) (hv : ∀ t, Valid (prog t)) : Inv (Global prog) (init prog) := by
  refine ⟨.inl rfl, fun t => ⟨fun c hc => ?_, by simp [init], trivial⟩⟩
  cases c with
  | setGlobal l => exact .inr ⟨t, hc⟩
  | log s l m => exact hv t s l m hc
  | _ => trivial

/-- C180. However the threads are scheduled, nothing is lost, doubled, reordered or misattributed within a thread: what a thread has written
so far is the beginning of what it would write alone, making its calls one after another, and all of it once it is finished.  Levels and
colours set by other threads do not matter to it, only the global level at the moments when it makes its settings. -/
theorem C180_each_thread (cfg : Cfg) (prog : Nat → List Call) (hv : ∀ t, Valid (prog t)) (sched : List Nat) :
    ∃ s, run cfg sched (init prog) = some s ∧ ∀ t,
      (∃ rest, Alone cfg (Global prog) none (prog t) (by' t s.out ++ rest)) ∧
      ((s.th t).prog = [] → (s.th t).acts = [] → Alone cfg (Global prog) none (prog t) (by' t s.out)) := by
  obtain ⟨s, e, hi, hall⟩ := run_ok cfg (Global prog) sched (init prog) (inv_init prog hv)
  refine ⟨s, e, fun t => ?_⟩
  obtain ⟨new, hn, hr⟩ := hall t
  have hn' : by' t s.out = new := hn
  rw [hn']
  constructor
  · obtain ⟨r, h⟩ := rem_total cfg (Global prog) 3 (.inl rfl) (s.th t).prog (s.th t).acts (s.th t).fresh (s.th t).ctx (hi.2 t).ready
    exact ⟨r, hr r h⟩
  · intro hp ha
    have := hr [] (by rw [hp, ha]; exact .done _)
    rw [List.append_nil] at this
    exact this

/-- Two threads with a message each, the second at a level that its own setting hides from the console. -/
example : ∃ s, run ⟨[], [120], false⟩ [0, 1, 1, 0, 1, 0, 1, 0, 1, 0, 0, 1, 1, 0, 1, 1, 0, 1, 1, 1, 1, 0, 1, 0]
      (init fun t => if t = 0 then [.log [] 1 [97, 10]] else if t = 1 then [.setLevels 4 0, .log [] 4 [98]] else []) = some s ∧
    by' 0 s.out = [.console [32, 32, 32, 101, 114, 114, 111, 114, 58, 32, 97, 10],
      .syslog 3 [67, 70, 69, 110, 103, 105, 110, 101, 40, 120, 41, 32, 32, 97, 10]] ∧
    by' 1 s.out = [.syslog 6 [67, 70, 69, 110, 103, 105, 110, 101, 40, 120, 41, 32, 32, 98, 10]] := ⟨_, rfl, by decide, by decide⟩

/-! ## Whole lines -/

theorem alone_lines (cfg : Cfg) (G : Int → Prop) (ht : cfg.timestamps = false) (hp : cfg.vprefix = []) (c : Option (Int × Int × Bool))
    (cs : List Call) (out : List Event) (h : Alone cfg G c cs out) (hc : ∀ x, c = some x → x.2.2 = false) (hs : ∀ b, Call.setColor b ∈ cs → b = false) :
    ∀ x, Event.console x ∈ out → ∃ s l m, Call.log s l m ∈ cs ∧ x = line l m := by
  induction h with
  | done c => simp
  | first cs g1 g2 out _ _ _ ih => exact ih (by rintro _ ⟨⟩; rfl) hs
  | setGlobal a b col l cs out _ ih =>
    intro x hx
    obtain ⟨s, l, m, h1, h2⟩ := ih (by rintro _ ⟨⟩; exact hc (a, b, col) rfl) (fun b hb => hs b (by simp [hb])) x hx
    exact ⟨s, l, m, by simp [h1], h2⟩
  | setLevels a b col a' b' cs out _ ih =>
    intro x hx
    obtain ⟨s, l, m, h1, h2⟩ := ih (by rintro _ ⟨⟩; exact hc (a, b, col) rfl) (fun b hb => hs b (by simp [hb])) x hx
    exact ⟨s, l, m, by simp [h1], h2⟩
  | setColor a b col col' cs out _ ih =>
    intro x hx
    obtain ⟨s, l, m, h1, h2⟩ := ih (by rintro _ ⟨⟩; exact hs _ (by simp)) (fun b hb => hs b (by simp [hb])) x hx
    exact ⟨s, l, m, by simp [h1], h2⟩
  | free c cs out _ ih =>
    intro x hx
    obtain ⟨s, l, m, h1, h2⟩ := ih (by rintro _ ⟨⟩) (fun b hb => hs b (by simp [hb])) x hx
    exact ⟨s, l, m, by simp [h1], h2⟩
  | log a b col stamp level msg cs out _ ih =>
    intro x hx
    have hcol : col = false := hc _ rfl
    rw [List.mem_append] at hx
    rcases hx with hx | hx
    · refine ⟨stamp, level, msg, by simp, ?_⟩
      simp only [message, console, system, hcol, hp, ht] at hx
      by_cases q : level ≤ b <;> by_cases r : level ≤ a ∧ level < 5 <;> simp [q, r] at hx <;> exact hx
    · obtain ⟨s, l, m, h1, h2⟩ := ih (by rintro _ ⟨⟩; exact hcol) (fun b hb => hs b (by simp [hb])) x hx
      exact ⟨s, l, m, by simp [h1], h2⟩

/-- The console texts, one by one. -/
def lines : List (Nat × Event) → List Bytes
  | [] => []
  | (_, .console x) :: es => x :: lines es
  | _ :: es => lines es

theorem text_lines (es : List (Nat × Event)) : text es = (lines es).flatten := by
  induction es with
  | nil => rfl
  | cons e es ih => obtain ⟨t, e⟩ := e; cases e <;> simp [text, lines, ih]

theorem mem_lines (es : List (Nat × Event)) (x : Bytes) (h : x ∈ lines es) : ∃ t, Event.console x ∈ by' t es := by
  induction es with
  | nil => simp [lines] at h
  | cons e es ih =>
    obtain ⟨t, e⟩ := e
    have lift : (∃ u, Event.console x ∈ by' u es) → ∃ u, Event.console x ∈ by' u ((t, e) :: es) := by
      rintro ⟨u, hu⟩
      refine ⟨u, ?_⟩
      rw [show (t, e) :: es = [(t, e)] ++ es from rfl, by_append]
      exact List.mem_append_right _ hu
    cases e with
    | console y =>
      simp only [lines, List.mem_cons] at h
      rcases h with rfl | h
      · exact ⟨t, by simp [by']⟩
      · exact lift (ih h)
    | hooked l m => exact lift (ih h)
    | syslog p m => exact lift (ih h)

/-- C180. Without colours, time stamps and prefix, the console shows whole lines only, each of them a message of some thread, at every
moment and under every schedule.  Missing from the full statement (whole lines with every setting): see the negated theorem. -/
theorem C180_whole_lines_partial (cfg : Cfg) (prog : Nat → List Call) (hv : ∀ t, Valid (prog t)) (sched : List Nat)
    (ht : cfg.timestamps = false) (hp : cfg.vprefix = []) (hc : ∀ t, Call.setColor true ∉ prog t) :
    ∃ s, run cfg sched (init prog) = some s ∧ ∃ ls : List Bytes, text s.out = ls.flatten ∧
      ∀ x ∈ ls, ∃ t st l m, Call.log st l m ∈ prog t ∧ x = line l m := by
  obtain ⟨s, e, h⟩ := C180_each_thread cfg prog hv sched
  refine ⟨s, e, lines s.out, text_lines _, fun x hx => ?_⟩
  obtain ⟨t, hm⟩ := mem_lines _ _ hx
  obtain ⟨rest, ha⟩ := (h t).1
  obtain ⟨st, l, m, h1, h2⟩ := alone_lines cfg _ ht hp none (prog t) _ ha (by rintro _ ⟨⟩) (fun b hb => by
    cases b with
    | false => rfl
    | true => exact absurd hb (hc t)) x (List.mem_append_left _ hm)
  exact ⟨t, st, l, m, h1, h2⟩

/-- Two threads, each with one message; time stamps are on. -/
def twoThreads : Nat → List Call
  | 0 => [.log [84, 48] 1 [97]]
  | 1 => [.log [84, 49] 1 [98]]
  | _ => []

/-- C180, the full statement is false: with time stamps a line is written by two calls, and the lines of two threads get mixed:
"T0 T1    error: a" and then "   error: b". -/
theorem C180_whole_lines_negated :
    ¬ (∀ (cfg : Cfg) (prog : Nat → List Call), (∀ t, Valid (prog t)) → ∀ sched s, run cfg sched (init prog) = some s →
        (∀ t, (s.th t).prog = [] ∧ (s.th t).acts = []) →
        ∃ ls : List Bytes, text s.out = ls.flatten ∧ ∀ x ∈ ls, ∃ t st l m col, Call.log st l m ∈ prog t ∧ x = entry cfg col st l m) := by
  intro h
  have hv : ∀ t, Valid (twoThreads t) := by
    intro t s l m hm
    match t with
    | 0 => simp [twoThreads] at hm; omega
    | 1 => simp [twoThreads] at hm; omega
    | t + 2 => simp [twoThreads] at hm
  have key : ∃ s, run ⟨[], [], true⟩ [0, 0, 0, 0, 0, 0, 0, 1, 1, 1, 1, 1, 1, 1, 0, 1, 0, 1, 0, 1] (init twoThreads) = some s ∧
      text s.out = [84, 48, 32, 84, 49, 32] ++ line 1 [97] ++ line 1 [98] ∧ ∀ t, (s.th t).prog = [] ∧ (s.th t).acts = [] := by
    refine ⟨_, rfl, by decide, fun t => ?_⟩
    match t with
    | 0 => exact ⟨rfl, rfl⟩
    | 1 => exact ⟨rfl, rfl⟩
    | t + 2 => exact ⟨rfl, rfl⟩
  obtain ⟨s, hs, htext, hdone⟩ := key
  obtain ⟨ls, h1, h2⟩ := h _ _ hv _ s hs hdone
  rw [htext] at h1
  cases ls with
  | nil => simp at h1
  | cons x ls =>
    obtain ⟨t, st, l, m, col, hm, rfl⟩ := h2 x (by simp)
    match t, hm with
    | 0, hm =>
      simp only [twoThreads, List.mem_singleton, Call.log.injEq] at hm
      obtain ⟨rfl, rfl, rfl⟩ := hm
      cases col <;> simp [entry, console, line, title, text, List.flatten] at h1
    | 1, hm =>
      simp only [twoThreads, List.mem_singleton, Call.log.injEq] at hm
      obtain ⟨rfl, rfl, rfl⟩ := hm
      cases col <;> simp [entry, console, line, title, text, List.flatten] at h1
    | t + 2, hm => simp [twoThreads] at hm

/-! ## The global level -/

/-- C180. A thread that logs for the first time (or after freeing its settings) while no other thread runs gets the present global level for
both of its levels. -/
theorem C180_first_use (cfg : Cfg) (s : St) (t : Nat) (st msg : Bytes) (l : Int) (cs : List Call) (hp : (s.th t).prog = .log st l msg :: cs)
    (ha : (s.th t).acts = []) (hc : (s.th t).ctx = none) :
    ∃ s', run cfg [t, t, t, t, t] s = some s' ∧ (s'.th t).ctx = some ⟨s.global, s.global, false⟩ ∧ (s'.th t).acts = [.choose st l msg] := by
  simp [run, step, put, hp, ha, hc, start]

/-- C180, as stated for every schedule that is false: when the global level is changed between its two reads, a thread ends up with a level for
the console and another one for the system log, although nobody ever asked for different levels. -/
theorem C180_torn_levels_negated :
    ¬ (∀ (prog : Nat → List Call), (∀ t a b, Call.setLevels a b ∉ prog t) → ∀ sched s c, run ⟨[], [], false⟩ sched (init prog) = some s →
        (s.th 1).ctx = some c → c.log = c.report) := by
  intro h
  let prog : Nat → List Call := fun t => if t = 0 then [.setGlobal 6] else if t = 1 then [.log [] 3 [97]] else []
  have : ∃ s, run ⟨[], [], false⟩ [1, 1, 1, 0, 0, 1, 1] (init prog) = some s ∧ (s.th 1).ctx = some ⟨3, 6, false⟩ := ⟨_, rfl, rfl⟩
  obtain ⟨s, hs, hc⟩ := this
  have hno : ∀ t a b, Call.setLevels a b ∉ prog t := by
    intro t a b
    simp only [prog]
    split
    · simp
    · split <;> simp
  have := h prog hno _ s _ hs hc
  exact absurd this (by decide)

end LogThreadsSpec
