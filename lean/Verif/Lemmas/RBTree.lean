import Verif.Spec.RBTree
import Verif.Lemmas.Map
/-! # Proof machinery for the red-black tree -/
namespace RB
open RBSpec

/-- Payloads before the hole. -/
def lft {P : Type} : List (Frame P) → List P
  | [] => []
  | f :: fs => lft fs ++ (if f.left then [] else inorder f.sib ++ [f.pay])

/-- Payloads after the hole. -/
def rgt {P : Type} : List (Frame P) → List P
  | [] => []
  | f :: fs => (if f.left then f.pay :: inorder f.sib else []) ++ rgt fs

theorem inorder_plug {P : Type} (ctx : List (Frame P)) : ∀ t, inorder (plug t ctx) = lft ctx ++ inorder t ++ rgt ctx := by
  induction ctx with
  | nil => intro t; simp [plug, lft, rgt]
  | cons f fs ih =>
    intro t
    rw [plug, ih]
    cases h : f.left <;> simp [up, h, lft, rgt, inorder]

theorem inorder_blacken {P : Type} (t : T P) : inorder t.blacken = inorder t := by cases t <;> rfl

@[simp] theorem isRed_node {P : Type} (red : Bool) (l r : T P) (p : P) : (T.node red l p r).isRed = red := rfl

@[simp] theorem isRed_blacken {P : Type} (t : T P) : t.blacken.isRed = false := by cases t <;> rfl

/-- Red-black with black height `n`, any root color. -/
def Ok {P : Type} : T P → Nat → Prop
  | .nil, n => n = 0
  | .node true l _ r, n => l.isRed = false ∧ r.isRed = false ∧ Ok l n ∧ Ok r n
  | .node false l _ r, n => ∃ m, n = m + 1 ∧ Ok l m ∧ Ok r m

def parentRed {P : Type} : List (Frame P) → Bool
  | [] => false
  | f :: _ => f.red

/-- Context into which a subtree of black height `n` fits. -/
def CtxOk {P : Type} : List (Frame P) → Nat → Prop
  | [], _ => True
  | f :: fs, n => Ok f.sib n ∧ (f.red = true → f.sib.isRed = false ∧ parentRed fs = false ∧ fs ≠ []) ∧
      CtxOk fs (if f.red then n else n + 1)

theorem ok_blacken {P : Type} {t : T P} {n : Nat} (h : Ok t n) : ∃ m, Ok t.blacken m := by
  cases t with
  | nil => exact ⟨n, h⟩
  | node red l p r =>
    cases red
    · exact ⟨n, h⟩
    · exact ⟨n + 1, n, rfl, h.2.2⟩

theorem blacken_of_black {P : Type} {t : T P} (h : t.isRed = false) : t.blacken = t := by
  cases t with
  | nil => rfl
  | node red l p r => cases red <;> simp_all [T.isRed, T.blacken]

/-- Plugging a fitting subtree. -/
theorem ok_plug {P : Type} (ctx : List (Frame P)) : ∀ (t : T P) (n : Nat), Ok t n → CtxOk ctx n →
    (parentRed ctx = true → t.isRed = false) → (ctx = [] → t.isRed = false) →
    ∃ m, Ok (plug t ctx) m ∧ (plug t ctx).isRed = false := by
  induction ctx with
  | nil => intro t n h _ _ h2; exact ⟨n, h, h2 rfl⟩
  | cons f fs ih =>
    intro t n h hc hp _
    obtain ⟨h1, h2, h3⟩ := hc
    rw [plug]
    cases hr : f.red
    · rw [hr] at h3
      refine ih _ (n + 1) ?_ h3 ?_ ?_
      · cases hl : f.left <;> simp only [up, hl, hr] <;> refine ⟨n, rfl, ?_⟩ <;> simp [h, h1]
      · intro _; cases hl : f.left <;> simp [up, hl, hr, T.isRed]
      · intro _; cases hl : f.left <;> simp [up, hl, hr, T.isRed]
    · rw [hr] at h3
      have h2 := h2 hr
      have hp := hp hr
      refine ih _ n ?_ h3 ?_ ?_
      · cases hl : f.left <;> simp only [up, hl, hr] <;> simp [Ok, h, h1, h2, hp]
      · rw [h2.2.1]; intro h; cases h
      · intro h; exact absurd h h2.2.2

/-! ## PutFix -/

theorem putFix_spec {P : Type} (fuel : Nat) : ∀ (l r : T P) (p : P) (ctx : List (Frame P)) (n : Nat), ctx.length < fuel →
    Ok l n → Ok r n → l.isRed = false → r.isRed = false → CtxOk ctx n →
    ∃ t m, putFix fuel (.node true l p r) ctx = some t ∧ Ok t m ∧ t.isRed = false ∧
      inorder t = lft ctx ++ inorder (.node true l p r) ++ rgt ctx := by
  induction fuel with
  | zero => intro l r p ctx n h; exact absurd h (by omega)
  | succ fuel ih =>
    intro l r p ctx n hlen hl hr hlb hrb hc
    cases ctx with
    | nil =>
      refine ⟨_, n + 1, rfl, ⟨n, rfl, hl, hr⟩, rfl, ?_⟩
      simp [plug, T.blacken, inorder, lft, rgt]
    | cons f ctx =>
      cases hf : f.red
      · -- parent black
        have ok : Ok (.node true l p r) n := ⟨hlb, hrb, hl, hr⟩
        obtain ⟨m, h1, h2⟩ := ok_plug (f :: ctx) (.node true l p r) n ok hc (by simp [parentRed, hf]) (by simp)
        refine ⟨plug (.node true l p r) (f :: ctx), m, ?_, h1, h2, inorder_plug _ _⟩
        simp only [putFix, hf]
        rw [blacken_of_black h2]; rfl
      · obtain ⟨c1, c2, c3⟩ := hc
        obtain ⟨c2a, c2b, c2c⟩ := c2 hf
        cases ctx with
        | nil => exact absurd rfl c2c
        | cons g rest =>
          obtain ⟨g1, g2, g3⟩ := c3
          simp only [parentRed] at c2b
          obtain ⟨fl, fr, fp, fs⟩ := f
          obtain ⟨gl, gr, gp, gs⟩ := g
          simp only at hf c2b c1 c2a g1 g2 g3
          subst hf c2b
          simp only [List.length_cons] at hlen
          simp only [if_true] at g1 g2 g3
          cases hy : gs.isRed
          · -- cases 2, 3
            have fin : ∀ a q b, Ok a n → Ok b n →
                inorder (.node false a q b) = inorder (up (up (.node true l p r) ⟨fl, true, fp, fs⟩) ⟨gl, false, gp, gs⟩) →
                ∃ m, Ok (plug (.node false a q b) rest).blacken m ∧ (plug (.node false a q b) rest).blacken.isRed = false ∧
                  inorder (plug (.node false a q b) rest).blacken =
                    lft (⟨fl, true, fp, fs⟩ :: ⟨gl, false, gp, gs⟩ :: rest) ++ inorder (.node true l p r) ++
                      rgt (⟨fl, true, fp, fs⟩ :: ⟨gl, false, gp, gs⟩ :: rest) := by
              intro a q b ha hb hin
              obtain ⟨m, k1, k2⟩ := ok_plug rest (.node false a q b) (n + 1) ⟨n, rfl, ha, hb⟩ g3 (by intro _; rfl)
                (by intro _; rfl)
              rw [blacken_of_black k2]
              refine ⟨m, k1, k2, ?_⟩
              rw [inorder_plug, hin]
              have := inorder_plug (⟨fl, true, fp, fs⟩ :: ⟨gl, false, gp, gs⟩ :: rest) (.node true l p r)
              rw [← this, plug, plug, inorder_plug]
            have fuel' : ∃ k, fuel = k + 1 := ⟨fuel - 1, by omega⟩
            obtain ⟨k, rfl⟩ := fuel'
            cases gl <;> cases fl
            · simp only [putFix, up, rotateLeft, rotateRight, hy, plug]
              obtain ⟨m, f1, f2, f3⟩ := fin (.node true gs gp fs) fp (.node true l p r)
                (by simp [Ok, hy, c1, c2a, g1]) (by simp [Ok, *]) (by simp [inorder, up])
              exact ⟨_, m, by simp, f1, f2, f3⟩
            · simp only [putFix, up, rotateLeft, rotateRight, hy, plug]
              obtain ⟨m, f1, f2, f3⟩ := fin (.node true gs gp l) p (.node true r fp fs)
                (by simp [Ok, *]) (by simp [Ok, *]) (by simp [inorder, up])
              exact ⟨_, m, by simp, f1, f2, f3⟩
            · simp only [putFix, up, rotateLeft, rotateRight, hy, plug]
              obtain ⟨m, f1, f2, f3⟩ := fin (.node true fs fp l) p (.node true r gp gs)
                (by simp [Ok, *]) (by simp [Ok, *]) (by simp [inorder, up])
              exact ⟨_, m, by simp, f1, f2, f3⟩
            · simp only [putFix, up, rotateLeft, rotateRight, hy, plug]
              obtain ⟨m, f1, f2, f3⟩ := fin (.node true l p r) fp (.node true fs gp gs)
                (by simp [Ok, *]) (by simp [Ok, *]) (by simp [inorder, up])
              exact ⟨_, m, by simp, f1, f2, f3⟩
          · -- case 1
            have hgs : Ok gs.blacken (n + 1) := by
              cases gs with
              | nil => cases hy
              | node red a q b =>
                simp only [T.isRed] at hy; subst hy
                exact ⟨n, rfl, g1.2.2⟩
            have hpar : Ok (up (.node true l p r) ⟨fl, false, fp, fs⟩) (n + 1) := by
              cases fl <;> simp [up, Ok, *]
            have hparb : (up (.node true l p r) ⟨fl, false, fp, fs⟩).isRed = false := by
              cases fl <;> simp [up, T.isRed]
            cases gl
            · obtain ⟨t, m, e1, e2, e3, e4⟩ := ih gs.blacken (up (.node true l p r) ⟨fl, false, fp, fs⟩) gp rest (n + 1)
                (by omega) hgs hpar (by simp) hparb g3
              refine ⟨t, m, ?_, e2, e3, ?_⟩
              · simp only [putFix, hy, if_true]
                simpa [up] using e1
              · rw [e4]
                cases fl <;> simp [lft, rgt, inorder, up, inorder_blacken]
            · obtain ⟨t, m, e1, e2, e3, e4⟩ := ih (up (.node true l p r) ⟨fl, false, fp, fs⟩) gs.blacken gp rest (n + 1)
                (by omega) hpar hgs hparb (by simp) g3
              refine ⟨t, m, ?_, e2, e3, ?_⟩
              · simp only [putFix, hy, if_true]
                simpa [up] using e1
              · rw [e4]
                cases fl <;> simp [lft, rgt, inorder, up, inorder_blacken]

/-! ## RemoveFix -/

/-- `x` is one black node short: it needs black height `n + 1` and has `n`, or is red and will be painted black. -/
def Hole {P : Type} (x : T P) (n : Nat) : Prop :=
  (x.isRed = true ∧ Ok x.blacken (n + 1)) ∨ (x.isRed = false ∧ Ok x n)

/-- What the loop guarantees. -/
def LoopOk {P : Type} (loop : T P → List (Frame P) → Bool → Option (T P)) (fuel : Nat) : Prop :=
  ∀ (x : T P) (ctx : List (Frame P)) (isRoot : Bool) (n : Nat), 2 * ctx.length + (if x.isRed then 0 else 1) < fuel →
    Hole x n → CtxOk ctx (n + 1) → (isRoot = true → ctx = [] ∨ x.isRed = true) → (ctx = [] → isRoot = true) →
    ∃ t m, loop x ctx isRoot = some t ∧ Ok t m ∧ t.isRed = false ∧ inorder t = lft ctx ++ inorder x ++ rgt ctx

theorem fixLeft_spec {P : Type} {loop : T P → List (Frame P) → Bool → Option (T P)} {fuel : Nat} (hloop : LoopOk loop fuel)
    (x : T P) (fr : Bool) (p : P) (wl : T P) (wp : P) (wr : T P) (rest : List (Frame P)) (pr : Bool) (n : Nat)
    (hx : Ok x n) (hxb : x.isRed = false) (hwl : Ok wl n) (hwr : Ok wr n)
    (hred : fr = true → parentRed rest = false ∧ rest ≠ [])
    (hc : CtxOk rest (if fr then n + 1 else n + 2))
    (hpr : pr = true → rest = [] ∨ fr = true) (hpr2 : rest = [] → pr = true)
    (hfuel : 2 * rest.length + (if fr then 0 else 1) < fuel) :
    ∃ t m, fixLeft loop x ⟨true, fr, p, .node false wl wp wr⟩ rest pr = some t ∧ Ok t m ∧ t.isRed = false ∧
      inorder t = lft rest ++ inorder (.node fr x p (.node false wl wp wr)) ++ rgt rest := by
  unfold fixLeft
  simp only
  -- the finishing rotation
  have fin : ∀ a q b, Ok (.node fr a q b) (if fr then n + 1 else n + 2) →
      inorder (.node fr a q b) = inorder (.node fr x p (.node false wl wp wr)) →
      ∃ t m, (if pr then some (plug (.node fr a q b) rest) else some (plug (.node fr a q b) rest).blacken) = some t ∧
        Ok t m ∧ t.isRed = false ∧ inorder t = lft rest ++ inorder (.node fr x p (.node false wl wp wr)) ++ rgt rest := by
    intro a q b hok hin
    obtain ⟨m, h1, h2⟩ := ok_plug rest (.node fr a q b) _ hok hc
      (by intro h; cases fr
          · rfl
          · rw [(hred rfl).1] at h; cases h)
      (by intro h; cases fr
          · rfl
          · exact absurd h (hred rfl).2)
    refine ⟨plug (.node fr a q b) rest, m, ?_, h1, h2, ?_⟩
    · rw [blacken_of_black h2]; cases pr <;> rfl
    · rw [inorder_plug, hin]
  cases hr : wr.isRed
  · cases hl : wl.isRed
    · -- both black
      simp only [Bool.not_false, Bool.and_self, if_true, up]
      have hw : Ok (.node true wl wp wr) n := ⟨hl, hr, hwl, hwr⟩
      cases fr
      · obtain ⟨t, m, e1, e2, e3, e4⟩ := hloop (.node false x p (.node true wl wp wr)) rest pr (n + 1) (by simpa [T.isRed] using hfuel)
          (Or.inr ⟨rfl, n, rfl, hx, hw⟩) hc (by intro h; rcases hpr h with h | h; exact Or.inl h; cases h) hpr2
        exact ⟨t, m, e1, e2, e3, by rw [e4]; simp [inorder]⟩
      · obtain ⟨t, m, e1, e2, e3, e4⟩ := hloop (.node true x p (.node true wl wp wr)) rest pr n (by simpa [T.isRed] using hfuel)
          (Or.inl ⟨rfl, n, rfl, hx, hw⟩) hc (by intro _; right; rfl) hpr2
        exact ⟨t, m, e1, e2, e3, by rw [e4]; simp [inorder]⟩
    · -- left red: rotate right first
      cases wl with
      | nil => cases hl
      | node r a q b =>
        simp only [T.isRed] at hl; subst hl
        obtain ⟨a1, b1, a2, b2⟩ := hwl
        simp only [Bool.not_true, Bool.false_and, Bool.not_false, T.isRed, if_true, T.blacken, rotateRight, up, rotateLeft]
        simp only [Bool.false_eq_true, if_false]
        refine fin (.node false x p a) q (.node false b wp wr) ?_ (by simp [inorder])
        cases fr <;> simp [Ok, T.isRed, hx, a2, b2, hwr]
  · -- right red
    simp only [Bool.not_true, Bool.and_false, Bool.false_eq_true, if_false, up, rotateLeft]
    refine fin (.node false x p wl) wp wr.blacken ?_ (by simp [inorder, inorder_blacken])
    have hb : Ok wr.blacken (n + 1) := by
      cases wr with
      | nil => cases hr
      | node r a q b => simp only [T.isRed] at hr; subst hr; exact ⟨n, rfl, hwr.2.2⟩
    cases fr <;> simp [Ok, hx, hwl, hb]

theorem fixRight_spec {P : Type} {loop : T P → List (Frame P) → Bool → Option (T P)} {fuel : Nat} (hloop : LoopOk loop fuel)
    (x : T P) (fr : Bool) (p : P) (wl : T P) (wp : P) (wr : T P) (rest : List (Frame P)) (pr : Bool) (n : Nat)
    (hx : Ok x n) (hxb : x.isRed = false) (hwl : Ok wl n) (hwr : Ok wr n)
    (hred : fr = true → parentRed rest = false ∧ rest ≠ [])
    (hc : CtxOk rest (if fr then n + 1 else n + 2))
    (hpr : pr = true → rest = [] ∨ fr = true) (hpr2 : rest = [] → pr = true)
    (hfuel : 2 * rest.length + (if fr then 0 else 1) < fuel) :
    ∃ t m, fixRight loop x ⟨false, fr, p, .node false wl wp wr⟩ rest pr = some t ∧ Ok t m ∧ t.isRed = false ∧
      inorder t = lft rest ++ inorder (.node fr (.node false wl wp wr) p x) ++ rgt rest := by
  unfold fixRight
  simp only
  -- the finishing rotation
  have fin : ∀ a q b, Ok (.node fr a q b) (if fr then n + 1 else n + 2) →
      inorder (.node fr a q b) = inorder (.node fr (.node false wl wp wr) p x) →
      ∃ t m, (if pr then some (plug (.node fr a q b) rest) else some (plug (.node fr a q b) rest).blacken) = some t ∧
        Ok t m ∧ t.isRed = false ∧ inorder t = lft rest ++ inorder (.node fr (.node false wl wp wr) p x) ++ rgt rest := by
    intro a q b hok hin
    obtain ⟨m, h1, h2⟩ := ok_plug rest (.node fr a q b) _ hok hc
      (by intro h; cases fr
          · rfl
          · rw [(hred rfl).1] at h; cases h)
      (by intro h; cases fr
          · rfl
          · exact absurd h (hred rfl).2)
    refine ⟨plug (.node fr a q b) rest, m, ?_, h1, h2, ?_⟩
    · rw [blacken_of_black h2]; cases pr <;> rfl
    · rw [inorder_plug, hin]
  cases hl : wl.isRed
  · cases hr : wr.isRed
    · -- both black
      simp only [Bool.not_false, Bool.and_self, if_true, up]
      have hw : Ok (.node true wl wp wr) n := ⟨hl, hr, hwl, hwr⟩
      cases fr
      · obtain ⟨t, m, e1, e2, e3, e4⟩ := hloop (.node false (.node true wl wp wr) p x) rest pr (n + 1) (by simpa [T.isRed] using hfuel)
          (Or.inr ⟨rfl, n, rfl, hw, hx⟩) hc (by intro h; rcases hpr h with h | h; exact Or.inl h; cases h) hpr2
        exact ⟨t, m, e1, e2, e3, by rw [e4]; simp [inorder]⟩
      · obtain ⟨t, m, e1, e2, e3, e4⟩ := hloop (.node true (.node true wl wp wr) p x) rest pr n (by simpa [T.isRed] using hfuel)
          (Or.inl ⟨rfl, n, rfl, hw, hx⟩) hc (by intro _; right; rfl) hpr2
        exact ⟨t, m, e1, e2, e3, by rw [e4]; simp [inorder]⟩
    · -- right red: rotate left first
      cases wr with
      | nil => cases hr
      | node r a q b =>
        simp only [T.isRed] at hr; subst hr
        obtain ⟨a1, b1, a2, b2⟩ := hwr
        simp only [Bool.not_true, Bool.and_false, Bool.not_false, T.isRed, if_true, T.blacken, rotateRight, up, rotateLeft]
        simp only [Bool.false_eq_true, if_false]
        refine fin (.node false wl wp a) q (.node false b p x) ?_ (by simp [inorder])
        cases fr <;> simp [Ok, T.isRed, hx, a2, b2, hwl]
  · -- left red
    simp only [Bool.not_true, Bool.false_and, Bool.false_eq_true, if_false, up, rotateRight]
    refine fin wl.blacken wp (.node false wr p x) ?_ (by simp [inorder, inorder_blacken])
    have hb : Ok wl.blacken (n + 1) := by
      cases wl with
      | nil => cases hl
      | node r a q b => simp only [T.isRed] at hl; subst hl; exact ⟨n, rfl, hwl.2.2⟩
    cases fr <;> simp [Ok, hx, hwr, hb]

theorem removeFix_spec {P : Type} (fuel : Nat) : LoopOk (removeFix (P := P) fuel) fuel := by
  induction fuel with
  | zero => intro x ctx isRoot n h; exact absurd h (by omega)
  | succ fuel ih =>
    intro x ctx isRoot n hfuel hole hc hroot hroot2
    rw [removeFix.eq_def]
    simp only
    cases hred : x.isRed
    · -- x black
      have hx : Ok x n := by
        rcases hole with ⟨h, -⟩ | ⟨-, h⟩
        · rw [hred] at h; cases h
        · exact h
      cases ctx with
      | nil =>
        rw [hroot2 rfl]
        refine ⟨x.blacken, n, by simp [plug], by rw [blacken_of_black hred]; exact hx, by simp, ?_⟩
        simp [lft, rgt, inorder_blacken]
      | cons f rest =>
        have hir : isRoot = false := by
          cases isRoot
          · rfl
          · rcases hroot rfl with h | h
            · cases h
            · rw [hred] at h; cases h
        rw [hir]
        simp only [Bool.or_self, Bool.false_eq_true, if_false]
        obtain ⟨c1, c2, c3⟩ := hc
        obtain ⟨fl, fr, fp, fs⟩ := f
        simp only at c1 c2 c3 ⊢
        simp only [hred, List.length_cons, Bool.false_eq_true, if_false] at hfuel
        cases fs with
        | nil => simp [Ok] at c1
        | node sred sl sp sr =>
          cases sred
          · -- sibling black
            obtain ⟨m, hm, s1, s2⟩ := c1
            have : m = n := by omega
            subst this
            cases fl
            · obtain ⟨t, m, e1, e2, e3, e4⟩ := fixRight_spec ih x fr fp sl sp sr rest rest.isEmpty m hx hred s1 s2
                (fun h => (c2 h).2) (by cases fr <;> simpa using c3) (by intro h; left; simpa using h) (by intro h; simp [h])
                (by cases fr <;> simp <;> omega)
              refine ⟨t, m, by simpa [T.isRed] using e1, e2, e3, ?_⟩
              rw [e4]; simp [lft, rgt, inorder]
            · obtain ⟨t, m, e1, e2, e3, e4⟩ := fixLeft_spec ih x fr fp sl sp sr rest rest.isEmpty m hx hred s1 s2
                (fun h => (c2 h).2) (by cases fr <;> simpa using c3) (by intro h; left; simpa using h) (by intro h; simp [h])
                (by cases fr <;> simp <;> omega)
              refine ⟨t, m, by simpa [T.isRed] using e1, e2, e3, ?_⟩
              rw [e4]; simp [lft, rgt, inorder]
          · -- sibling red: parent black
            obtain ⟨b1, b2, s1, s2⟩ := c1
            have hfr : fr = false := by
              cases fr
              · rfl
              · have := (c2 rfl).1; simp [T.isRed] at this
            subst hfr
            simp only [Bool.false_eq_true, if_false] at c3
            cases fl
            · cases sr with
              | nil => simp [Ok] at s2
              | node r2 wl wp wr =>
                simp only [T.isRed] at b2; subst b2
                obtain ⟨m, hm, w1, w2⟩ := s2
                have : m = n := by omega
                subst this
                obtain ⟨t, m, e1, e2, e3, e4⟩ := fixRight_spec ih x true fp wl wp wr (⟨false, false, sp, sl⟩ :: rest)
                  rest.isEmpty m hx hred w1 w2 (by intro _; exact ⟨rfl, by simp⟩)
                  (by simp only [if_true]; exact ⟨s1, by simp, by simpa using c3⟩) (by intro _; right; rfl) (by intro h; cases h)
                  (by simp; omega)
                refine ⟨t, m, by simpa [T.isRed, T.blacken, up, rotateRight] using e1, e2, e3, ?_⟩
                rw [e4]; simp [lft, rgt, inorder]
            · cases sl with
              | nil => simp [Ok] at s1
              | node r2 wl wp wr =>
                simp only [T.isRed] at b1; subst b1
                obtain ⟨m, hm, w1, w2⟩ := s1
                have : m = n := by omega
                subst this
                obtain ⟨t, m, e1, e2, e3, e4⟩ := fixLeft_spec ih x true fp wl wp wr (⟨true, false, sp, sr⟩ :: rest)
                  rest.isEmpty m hx hred w1 w2 (by intro _; exact ⟨rfl, by simp⟩)
                  (by simp only [if_true]; exact ⟨s2, by simp, by simpa using c3⟩) (by intro _; right; rfl) (by intro h; cases h)
                  (by simp; omega)
                refine ⟨t, m, by simpa [T.isRed, T.blacken, up, rotateLeft] using e1, e2, e3, ?_⟩
                rw [e4]; simp [lft, rgt, inorder]
    · -- x red
      have hb : Ok x.blacken (n + 1) := by
        rcases hole with ⟨-, h⟩ | ⟨h, -⟩
        · exact h
        · rw [hred] at h; cases h
      obtain ⟨m, h1, h2⟩ := ok_plug ctx x.blacken (n + 1) hb hc (by simp) (by simp)
      exact ⟨_, m, by simp, h1, h2, by rw [inorder_plug, inorder_blacken]⟩

/-! ## Comparators -/
open SeqSpec (TotalPreorder)

section cmp
variable {K : Type} {cmp : K → K → Int}

theorem cmp_zero_symm (h : TotalPreorder cmp) {a b : K} (e : cmp a b = 0) : cmp b a = 0 := by
  have h1 := h.swap a b; have h2 := h.swap b a
  have : ¬ cmp b a < 0 := fun x => by have := h1.mpr x; omega
  have : ¬ 0 < cmp b a := fun x => by have := h2.mp x; omega
  omega

theorem cmp_le_symm (h : TotalPreorder cmp) {a b : K} (e : ¬ cmp a b < 0) : cmp b a ≤ 0 := by
  have h1 := h.swap a b; have h2 := h.swap b a
  have : ¬ 0 < cmp b a := fun x => by have := h2.mp x; omega
  omega

theorem cmp_lt_le (h : TotalPreorder cmp) {a b c : K} (e1 : cmp a b < 0) (e2 : cmp b c ≤ 0) : cmp a c < 0 := by
  apply Classical.byContradiction
  intro hn
  have := h.trans b c a e2 (cmp_le_symm h hn)
  have := (h.swap b a).mpr e1
  omega

theorem cmp_le_lt (h : TotalPreorder cmp) {a b c : K} (e1 : cmp a b ≤ 0) (e2 : cmp b c < 0) : cmp a c < 0 := by
  apply Classical.byContradiction
  intro hn
  have := h.trans c a b (cmp_le_symm h hn) e1
  have := (h.swap c b).mpr e2
  omega

theorem cmp_gt (h : TotalPreorder cmp) {a b : K} (e1 : ¬ cmp a b = 0) (e2 : ¬ cmp a b < 0) : cmp b a < 0 :=
  (h.swap a b).mp (by omega)

/-- Comparator equality as map callbacks. -/
def F (cmp : K → K → Int) : CMap.Fns K := ⟨keyEq cmp, fun _ => 0⟩

theorem F_lawful (h : TotalPreorder cmp) : MapSpec.Lawful (F cmp) := by
  refine ⟨?_, ?_, ?_, fun _ _ _ => rfl⟩
  · intro a; simp [F, keyEq, h.refl]
  · intro a b e; simp only [F, keyEq, decide_eq_true_eq] at *; exact cmp_zero_symm h e
  · intro a b c e1 e2
    simp only [F, keyEq, decide_eq_true_eq] at *
    have h1 := h.trans a b c (by omega) (by omega)
    have h2 := h.trans c b a (by rw [cmp_zero_symm h e2]; omega) (by rw [cmp_zero_symm h e1]; omega)
    have := h.swap a c; have := h.swap c a
    apply Classical.byContradiction
    intro hn
    have : 0 < cmp c a := by omega
    omega

theorem inc_noDup (h : TotalPreorder cmp) {V : Type} {l : List (K × V)} (hi : Increasing cmp l) : CMap.NoDup (F cmp) l := by
  refine List.Pairwise.imp ?_ hi
  intro a b hab
  simp only [F, keyEq, decide_eq_false_iff_not]
  omega

end cmp

/-- A valid tree object. -/
structure Good {K V : Type} (cmp : K → K → Int) (t : Tree K V) : Prop where
  ok : ∃ n, Ok t.root n
  black : t.root.isRed = false
  inc : Increasing cmp (inorder t.root)
  size : t.size = (inorder t.root).length

/-- The keys before/after a position are below/above `key`. -/
def Around {K V : Type} (cmp : K → K → Int) (key : K) (a b : List (K × V)) : Prop :=
  (∀ p ∈ a, cmp p.1 key < 0) ∧ (∀ p ∈ b, cmp key p.1 < 0)

theorem putDescend_spec {K V : Type} {cmp : K → K → Int} (h : TotalPreorder cmp) (key : K) (value : V) (t : T (K × V)) :
    ∀ (ctx : List (Frame (K × V))) (n : Nat), Ok t n → CtxOk ctx n → (parentRed ctx = true → t.isRed = false) →
      (ctx = [] → t.isRed = false) → Increasing cmp (lft ctx ++ inorder t ++ rgt ctx) → Around cmp key (lft ctx) (rgt ctx) →
      (∀ f ∈ ctx.head?, f.left = decide (cmp key f.pay.1 < 0)) →
      (∃ root m a old b, putDescend cmp key value t ctx = .inl (root, old) ∧ Ok root m ∧ root.isRed = false ∧
        lft ctx ++ inorder t ++ rgt ctx = a ++ old :: b ∧ cmp key old.1 = 0 ∧ inorder root = a ++ (key, value) :: b) ∨
      (∃ ctx', putDescend cmp key value t ctx = .inr ctx' ∧ CtxOk ctx' 0 ∧
        lft ctx ++ inorder t ++ rgt ctx = lft ctx' ++ rgt ctx' ∧ Around cmp key (lft ctx') (rgt ctx') ∧
        (∀ f ∈ ctx'.head?, f.left = decide (cmp key f.pay.1 < 0))) := by
  induction t with
  | nil =>
    intro ctx n h1 h2 _ _ h5 h6 h7
    right
    simp only [Ok] at h1; subst h1
    exact ⟨ctx, rfl, h2, by simp [inorder], h6, h7⟩
  | node red l p r ihl ihr =>
    intro ctx n h1 h2 h3 h4 h5 h6 h7
    by_cases c0 : cmp key p.1 = 0
    · left
      obtain ⟨m, k1, k2⟩ := ok_plug ctx (.node red l (key, value) r) n (by cases red <;> exact h1) h2
        (by intro h; have := h3 h; cases red <;> simp_all) (by intro h; have := h4 h; cases red <;> simp_all)
      refine ⟨_, m, lft ctx ++ inorder l, p, inorder r ++ rgt ctx, by simp [putDescend, c0], k1, k2, by simp [inorder], c0, ?_⟩
      rw [inorder_plug]; simp [inorder]
    · have okl : ∃ m, Ok l m ∧ Ok r m ∧ (red = true → m = n ∧ l.isRed = false ∧ r.isRed = false) ∧ (red = false → n = m + 1) := by
        cases red
        · obtain ⟨m, rfl, a, b⟩ := h1; exact ⟨m, a, b, by simp, by simp⟩
        · exact ⟨n, h1.2.2.1, h1.2.2.2, fun _ => ⟨rfl, h1.1, h1.2.1⟩, by simp⟩
      obtain ⟨m, hl, hr, q1, q2⟩ := okl
      have hctx : ∀ (b : Bool) (s : T (K × V)), Ok s m → (red = true → s.isRed = false) → CtxOk (⟨b, red, p, s⟩ :: ctx) m := by
        intro b s hs hsb
        refine ⟨hs, fun hred => ⟨hsb hred, ?_, ?_⟩, ?_⟩
        · simp only at hred; subst hred
          cases hp : parentRed ctx
          · rfl
          · have := h3 hp; simp at this
        · simp only at hred; subst hred
          intro hn; have := h4 hn; simp at this
        · simp only
          cases red
          · have := q2 rfl; subst this; simpa using h2
          · have := (q1 rfl).1; subst this; simpa using h2
      by_cases c1 : cmp key p.1 < 0
      · have e : lft (⟨true, red, p, r⟩ :: ctx) ++ inorder l ++ rgt (⟨true, red, p, r⟩ :: ctx) =
            lft ctx ++ inorder (.node red l p r) ++ rgt ctx := by simp [lft, rgt, inorder]
        have := ihl (⟨true, red, p, r⟩ :: ctx) m hl (hctx true r hr (fun h => (q1 h).2.2)) (fun h => (q1 h).2.1) (by simp)
          (by rw [e]; exact h5) ?_ (by simp [c1])
        · rw [e] at this
          simpa [putDescend, c0, c1] using this
        · refine ⟨by simpa [lft] using h6.1, ?_⟩
          intro q hq
          simp only [rgt, if_true, List.cons_append, List.mem_cons, List.mem_append] at hq
          rcases hq with rfl | hq | hq
          · exact c1
          · have := (List.pairwise_append.mp (List.pairwise_append.mp h5).1).2.1
            simp only [inorder] at this
            have := (List.pairwise_cons.mp (List.pairwise_append.mp this).2.1).1 q hq
            exact cmp_lt_le h c1 (Int.le_of_lt this)
          · exact h6.2 q hq
      · have e : lft (⟨false, red, p, l⟩ :: ctx) ++ inorder r ++ rgt (⟨false, red, p, l⟩ :: ctx) =
            lft ctx ++ inorder (.node red l p r) ++ rgt ctx := by simp [lft, rgt, inorder]
        have := ihr (⟨false, red, p, l⟩ :: ctx) m hr (hctx false l hl (fun h => (q1 h).2.1)) (fun h => (q1 h).2.2) (by simp)
          (by rw [e]; exact h5) ?_ (by simp [c1])
        · rw [e] at this
          simpa [putDescend, c0, c1] using this
        · refine ⟨?_, by simpa [rgt] using h6.2⟩
          intro q hq
          have c2 := cmp_gt h c0 c1
          simp only [lft, Bool.false_eq_true, if_false, List.mem_append, List.mem_singleton] at hq
          rcases hq with hq | hq | rfl
          · exact h6.1 q hq
          · have := (List.pairwise_append.mp (List.pairwise_append.mp h5).1).2.1
            simp only [inorder] at this
            have := (List.pairwise_append.mp this).2.2 q hq p (by simp)
            exact cmp_lt_le h this (Int.le_of_lt c2)
          · exact c2

theorem around_hit {K V : Type} {cmp : K → K → Int} (h : TotalPreorder cmp) {key : K} {a b : List (K × V)}
    (ha : Around cmp key a b) : (∀ p ∈ a, CMap.hit (F cmp) key p = false) ∧ (∀ p ∈ b, CMap.hit (F cmp) key p = false) := by
  constructor
  · intro p hp; have := ha.1 p hp; simp only [CMap.hit, F, keyEq, decide_eq_false_iff_not]; omega
  · intro p hp; have := ha.2 p hp; simp only [CMap.hit, F, keyEq, decide_eq_false_iff_not]
    intro e; have := cmp_zero_symm h e; omega

theorem inc_insert {K V : Type} {cmp : K → K → Int} (h : TotalPreorder cmp) {key : K} {value : V} {a b : List (K × V)}
    (hi : Increasing cmp (a ++ b)) (ha : Around cmp key a b) : Increasing cmp (a ++ (key, value) :: b) := by
  obtain ⟨i1, i2, i3⟩ := List.pairwise_append.mp hi
  refine List.pairwise_append.mpr ⟨i1, List.pairwise_cons.mpr ⟨ha.2, i2⟩, ?_⟩
  intro p hp q hq
  rcases List.mem_cons.mp hq with rfl | hq
  · exact ha.1 p hp
  · exact i3 p hp q hq

/-- Around an equal element. -/
theorem around_of_eq {K V : Type} {cmp : K → K → Int} (h : TotalPreorder cmp) {key : K} {a b : List (K × V)} {old : K × V}
    (hi : Increasing cmp (a ++ old :: b)) (he : cmp key old.1 = 0) : Around cmp key a b := by
  obtain ⟨i1, i2, i3⟩ := List.pairwise_append.mp hi
  have i2' := List.pairwise_cons.mp i2
  refine ⟨?_, ?_⟩
  · intro p hp
    exact cmp_lt_le h (i3 p hp old (by simp)) (by rw [cmp_zero_symm h he]; omega)
  · intro p hp
    exact cmp_le_lt h (by omega) (i2'.1 p hp)

theorem put_spec {K V : Type} {cmp : K → K → Int} (h : TotalPreorder cmp) {t : Tree K V} (g : Good cmp t) (key : K) (value : V) :
    ∃ t', put cmp t key value = some (t', ((inorder t.root).find? (CMap.hit (F cmp) key)).isSome,
        ((inorder t.root).find? (CMap.hit (F cmp) key)).toList) ∧ Good cmp t' ∧
      (inorder t'.root).Perm ((key, value) :: (inorder t.root).filter (fun p => !CMap.hit (F cmp) key p)) := by
  obtain ⟨n, hok⟩ := g.ok
  rcases putDescend_spec h key value t.root [] n hok trivial (by intro h; cases h) (fun _ => g.black)
    (by simpa [lft, rgt] using g.inc) ⟨by simp [lft], by simp [rgt]⟩ (by simp) with
    ⟨root, m, a, old, b, e1, e2, e3, e4, e5, e6⟩ | ⟨ctx', e1, e2, e3, e4, e5⟩
  · simp only [lft, rgt, List.nil_append, List.append_nil] at e4
    have hinc := g.inc
    rw [e4] at hinc
    have hA := around_of_eq h hinc e5
    have hH := around_hit h hA
    have hold : CMap.hit (F cmp) key old = true := by
      simp only [CMap.hit, F, keyEq, decide_eq_true_eq]; exact cmp_zero_symm h e5
    have hfind : (inorder t.root).find? (CMap.hit (F cmp) key) = some old := by
      rw [e4, show a ++ old :: b = a ++ ([old] ++ b) by simp, CMap.find_split hH.1 hH.2]; simp [hold]
    have hfil : (inorder t.root).filter (fun p => !CMap.hit (F cmp) key p) = a ++ b := by
      rw [e4, show a ++ old :: b = a ++ ([old] ++ b) by simp, CMap.filter_split hH.1 hH.2]; simp [hold]
    refine ⟨{ t with root := root }, by simp [put, e1, hfind], ⟨⟨m, e2⟩, e3, ?_, ?_⟩, ?_⟩
    · show Increasing cmp (inorder root)
      rw [e6]
      obtain ⟨i1, i2, i3⟩ := List.pairwise_append.mp hinc
      exact inc_insert h (List.pairwise_append.mpr ⟨i1, (List.pairwise_cons.mp i2).2, fun p hp q hq => i3 p hp q (by simp [hq])⟩) hA
    · show t.size = (inorder root).length
      rw [g.size, e4, e6]; simp
    · show (inorder root).Perm _
      rw [e6, hfil]; exact List.perm_middle
  · simp only [lft, rgt, List.nil_append, List.append_nil] at e3
    have hH := around_hit h e4
    have hfind : (inorder t.root).find? (CMap.hit (F cmp) key) = none := by
      rw [e3, List.find?_eq_none]; intro p hp
      rcases List.mem_append.mp hp with hp | hp
      · simp [hH.1 p hp]
      · simp [hH.2 p hp]
    have hfil : (inorder t.root).filter (fun p => !CMap.hit (F cmp) key p) = inorder t.root := by
      rw [List.filter_eq_self]; intro p hp
      have := List.find?_eq_none.mp hfind p hp; simpa using this
    have hctx : putSide cmp key ctx' = ctx' := by
      cases ctx' with
      | nil => rfl
      | cons f fs => simp only [putSide]; rw [← e5 f (by simp)]
    obtain ⟨root, m, p1, p2, p3, p4⟩ := putFix_spec (ctx'.length + 1) .nil .nil (key, value) ctx' 0 (by omega) rfl rfl rfl rfl e2
    have hin : inorder root = lft ctx' ++ (key, value) :: rgt ctx' := by rw [p4]; simp [inorder]
    refine ⟨⟨root, t.size + 1⟩, ?_, ⟨⟨m, p2⟩, p3, ?_, ?_⟩, ?_⟩
    · simp only [put, e1, hctx, p1, hfind]; rfl
    · show Increasing cmp (inorder root)
      rw [hin]
      exact inc_insert h (by rw [← e3]; exact g.inc) e4
    · show t.size + 1 = (inorder root).length
      rw [g.size, e3, hin]; simp; omega
    · show (inorder root).Perm _
      rw [hin, hfil, e3]; exact List.perm_middle

theorem getNode_spec {K V : Type} {cmp : K → K → Int} (h : TotalPreorder cmp) (key : K) (t : T (K × V)) :
    ∀ (ctx : List (Frame (K × V))) (n : Nat), Ok t n → CtxOk ctx n → (parentRed ctx = true → t.isRed = false) →
      (ctx = [] → t.isRed = false) → Increasing cmp (lft ctx ++ inorder t ++ rgt ctx) → Around cmp key (lft ctx) (rgt ctx) →
      (getNode cmp key t ctx = none ∧ ∃ a b, lft ctx ++ inorder t ++ rgt ctx = a ++ b ∧ Around cmp key a b) ∨
      (∃ red l p r ctx' m, getNode cmp key t ctx = some (.node red l p r, ctx') ∧ cmp key p.1 = 0 ∧
        Ok (.node red l p r) m ∧ CtxOk ctx' m ∧ (parentRed ctx' = true → red = false) ∧ (ctx' = [] → red = false) ∧
        lft ctx ++ inorder t ++ rgt ctx = lft ctx' ++ inorder (.node red l p r) ++ rgt ctx') := by
  induction t with
  | nil =>
    intro ctx n _ _ _ _ _ h6
    left
    exact ⟨rfl, lft ctx, rgt ctx, by simp [inorder], h6⟩
  | node red l p r ihl ihr =>
    intro ctx n h1 h2 h3 h4 h5 h6
    by_cases c0 : cmp key p.1 = 0
    · right
      exact ⟨red, l, p, r, ctx, n, by simp [getNode, c0], c0, h1, h2, h3, h4, rfl⟩
    · have okl : ∃ m, Ok l m ∧ Ok r m ∧ (red = true → m = n ∧ l.isRed = false ∧ r.isRed = false) ∧ (red = false → n = m + 1) := by
        cases red
        · obtain ⟨m, rfl, a, b⟩ := h1; exact ⟨m, a, b, by simp, by simp⟩
        · exact ⟨n, h1.2.2.1, h1.2.2.2, fun _ => ⟨rfl, h1.1, h1.2.1⟩, by simp⟩
      obtain ⟨m, hl, hr, q1, q2⟩ := okl
      have hctx : ∀ (b : Bool) (s : T (K × V)), Ok s m → (red = true → s.isRed = false) → CtxOk (⟨b, red, p, s⟩ :: ctx) m := by
        intro b s hs hsb
        refine ⟨hs, fun hred => ⟨hsb hred, ?_, ?_⟩, ?_⟩
        · simp only at hred; subst hred
          cases hp : parentRed ctx
          · rfl
          · have := h3 hp; simp at this
        · simp only at hred; subst hred
          intro hn; have := h4 hn; simp at this
        · simp only
          cases red
          · have := q2 rfl; subst this; simpa using h2
          · have := (q1 rfl).1; subst this; simpa using h2
      by_cases c1 : cmp key p.1 < 0
      · have e : lft (⟨true, red, p, r⟩ :: ctx) ++ inorder l ++ rgt (⟨true, red, p, r⟩ :: ctx) =
            lft ctx ++ inorder (.node red l p r) ++ rgt ctx := by simp [lft, rgt, inorder]
        have := ihl (⟨true, red, p, r⟩ :: ctx) m hl (hctx true r hr (fun h => (q1 h).2.2)) (fun h => (q1 h).2.1) (by simp)
          (by rw [e]; exact h5) ?_
        · rw [e] at this
          simpa [getNode, c0, c1] using this
        · refine ⟨by simpa [lft] using h6.1, ?_⟩
          intro q hq
          simp only [rgt, if_true, List.cons_append, List.mem_cons, List.mem_append] at hq
          rcases hq with rfl | hq | hq
          · exact c1
          · have := (List.pairwise_append.mp (List.pairwise_append.mp h5).1).2.1
            simp only [inorder] at this
            have := (List.pairwise_cons.mp (List.pairwise_append.mp this).2.1).1 q hq
            exact cmp_lt_le h c1 (Int.le_of_lt this)
          · exact h6.2 q hq
      · have e : lft (⟨false, red, p, l⟩ :: ctx) ++ inorder r ++ rgt (⟨false, red, p, l⟩ :: ctx) =
            lft ctx ++ inorder (.node red l p r) ++ rgt ctx := by simp [lft, rgt, inorder]
        have := ihr (⟨false, red, p, l⟩ :: ctx) m hr (hctx false l hl (fun h => (q1 h).2.1)) (fun h => (q1 h).2.2) (by simp)
          (by rw [e]; exact h5) ?_
        · rw [e] at this
          simpa [getNode, c0, c1] using this
        · refine ⟨?_, by simpa [rgt] using h6.2⟩
          intro q hq
          have c2 := cmp_gt h c0 c1
          simp only [lft, Bool.false_eq_true, if_false, List.mem_append, List.mem_singleton] at hq
          rcases hq with hq | hq | rfl
          · exact h6.1 q hq
          · have := (List.pairwise_append.mp (List.pairwise_append.mp h5).1).2.1
            simp only [inorder] at this
            have := (List.pairwise_append.mp this).2.2 q hq p (by simp)
            exact cmp_lt_le h this (Int.le_of_lt c2)
          · exact c2

theorem find_none_of_around {K V : Type} {cmp : K → K → Int} (h : TotalPreorder cmp) {key : K} {a b : List (K × V)}
    (ha : Around cmp key a b) : (a ++ b).find? (CMap.hit (F cmp) key) = none := by
  have hH := around_hit h ha
  rw [List.find?_eq_none]; intro p hp
  rcases List.mem_append.mp hp with hp | hp
  · simp [hH.1 p hp]
  · simp [hH.2 p hp]

theorem get_spec {K V : Type} {cmp : K → K → Int} (h : TotalPreorder cmp) {t : Tree K V} (g : Good cmp t) (key : K) :
    get cmp t key = ((inorder t.root).find? (CMap.hit (F cmp) key)).map (·.2) := by
  obtain ⟨n, hok⟩ := g.ok
  rcases getNode_spec h key t.root [] n hok trivial (by intro h; cases h) (fun _ => g.black)
    (by simpa [lft, rgt] using g.inc) ⟨by simp [lft], by simp [rgt]⟩ with
    ⟨e1, a, b, e2, e3⟩ | ⟨red, l, p, r, ctx', m, e1, e2, -, -, -, -, e3⟩
  · simp only [lft, rgt, List.nil_append, List.append_nil] at e2
    rw [e2, find_none_of_around h e3]
    simp [get, e1]
  · simp only [lft, rgt, List.nil_append, List.append_nil, inorder] at e3
    have e4 : inorder t.root = (lft ctx' ++ inorder l) ++ p :: (inorder r ++ rgt ctx') := by rw [e3]; simp
    have hinc := g.inc
    rw [e4] at hinc
    have hH := around_hit h (around_of_eq h hinc e2)
    have hp : CMap.hit (F cmp) key p = true := by
      simp only [CMap.hit, F, keyEq, decide_eq_true_eq]; exact cmp_zero_symm h e2
    have : (inorder t.root).find? (CMap.hit (F cmp) key) = some p := by
      rw [e4, show ∀ a b : List (K × V), a ++ p :: b = a ++ ([p] ++ b) by simp, CMap.find_split hH.1 hH.2]; simp [hp]
    rw [this]
    simp [get, e1]

/-! ## Successor, iteration -/

theorem leftmost_spec {P : Type} : ∀ (t : T P) (ctx : List (Frame P)), t ≠ .nil →
    ∃ red p r pre, leftmost t ctx = (.node red .nil p r, pre ++ ctx) ∧ lft pre = [] ∧
      inorder t = p :: inorder r ++ rgt pre ∧
      ∀ n, Ok t n → CtxOk ctx n → (parentRed ctx = true → t.isRed = false) → (ctx = [] → t.isRed = false) →
        ∃ m, Ok (.node red .nil p r) m ∧ CtxOk (pre ++ ctx) m ∧ (parentRed (pre ++ ctx) = true → red = false) ∧
          (pre ++ ctx = [] → red = false) := by
  intro t ctx
  fun_induction leftmost t ctx with
  | case1 red red2 l2 p2 r2 p r ctx ih =>
    intro _
    obtain ⟨red', p', r', pre, e1, e2, e3, e4⟩ := ih (by simp)
    refine ⟨red', p', r', pre ++ [⟨true, red, p, r⟩], by simp [e1], ?_, ?_, ?_⟩
    · have : ∀ a b : List (Frame P), lft (a ++ b) = lft b ++ lft a := by
        intro a b; induction a with
        | nil => simp [lft]
        | cons x a ih => simp [lft, ih]
      rw [this, e2]; simp [lft]
    · have : ∀ a b : List (Frame P), rgt (a ++ b) = rgt a ++ rgt b := by
        intro a b; induction a with
        | nil => simp [rgt]
        | cons x a ih => simp [rgt, ih]
      rw [this]
      simp only [inorder] at e3 ⊢
      rw [e3]; simp [rgt]
    · intro n h1 h2 h3 h4
      rw [List.append_assoc, List.singleton_append]
      cases red
      · obtain ⟨m, rfl, a, b⟩ := h1
        exact e4 m a ⟨b, by simp, by simpa using h2⟩ (by intro h; cases h) (by intro h; cases h)
      · obtain ⟨a1, a2, a3, a4⟩ := h1
        refine e4 n a3 ⟨a4, fun _ => ⟨a2, ?_, ?_⟩, by simpa using h2⟩ (fun _ => a1) (by intro h; cases h)
        · cases hp : parentRed ctx
          · rfl
          · have := h3 hp; simp at this
        · intro hn; have := h4 hn; simp at this
  | case2 t ctx hne =>
    intro hnil
    cases t with
    | nil => exact absurd rfl hnil
    | node red l p r =>
      cases l with
      | nil => exact ⟨red, p, r, [], rfl, rfl, by simp [inorder, rgt], fun n h1 h2 h3 h4 => ⟨n, h1, h2, h3, h4⟩⟩
      | node a b c d => exact absurd rfl (hne red a b c d p r)

theorem climb_spec {P : Type} (ctx : List (Frame P)) : ∀ t : T P,
    (climb t ctx = none ∧ rgt ctx = []) ∨
    (∃ red l p r ctx', climb t ctx = some (.node red l p r, ctx') ∧ rgt ctx = p :: inorder r ++ rgt ctx') := by
  induction ctx with
  | nil => intro t; left; exact ⟨rfl, rfl⟩
  | cons f fs ih =>
    intro t
    cases hf : f.left
    · rcases ih (up t f) with ⟨a, b⟩ | ⟨red, l, p, r, ctx', a, b⟩
      · left; simp [climb, hf, a, rgt, b]
      · right; exact ⟨red, l, p, r, ctx', by simp [climb, hf, a], by simp [rgt, hf, b]⟩
    · right; exact ⟨f.red, t, f.pay, f.sib, fs, by simp [climb, hf, up], by simp [rgt, hf]⟩

theorem next_spec {P : Type} (red : Bool) (l r : T P) (p : P) (ctx : List (Frame P)) :
    (next (.node red l p r, ctx) = none ∧ inorder r ++ rgt ctx = []) ∨
    (∃ red' l' p' r' ctx', next (.node red l p r, ctx) = some (.node red' l' p' r', ctx') ∧
      inorder r ++ rgt ctx = p' :: inorder r' ++ rgt ctx') := by
  cases r with
  | nil =>
    rcases climb_spec ctx (.node red l p .nil) with ⟨a, b⟩ | ⟨red', l', p', r', ctx', a, b⟩
    · left; exact ⟨by simp [next, a], by simp [inorder, b]⟩
    · right; exact ⟨red', l', p', r', ctx', by simp [next, a], by simp [inorder, b]⟩
  | node red2 l2 p2 r2 =>
    right
    obtain ⟨red', p', r', pre, e1, e2, e3, -⟩ := leftmost_spec (.node red2 l2 p2 r2) (⟨false, red, p, l⟩ :: ctx) (by simp)
    refine ⟨red', .nil, p', r', pre ++ ⟨false, red, p, l⟩ :: ctx, by simp only [next, e1], ?_⟩
    have : ∀ a b : List (Frame P), rgt (a ++ b) = rgt a ++ rgt b := by
      intro a b; induction a with
      | nil => simp [rgt]
      | cons x a ih => simp [rgt, ih]
    rw [e3, this]; simp [rgt]

theorem drain_spec {P : Type} (fuel : Nat) : ∀ (red : Bool) (l r : T P) (p : P) (ctx : List (Frame P)),
    (p :: inorder r ++ rgt ctx).length ≤ fuel →
    drain fuel (some (.node red l p r, ctx)) = some (p :: inorder r ++ rgt ctx) := by
  induction fuel with
  | zero => intro _ _ _ _ _ h; simp at h
  | succ fuel ih =>
    intro red l r p ctx h
    simp only [List.cons_append, List.length_cons] at h
    simp only [drain]
    rcases next_spec red l r p ctx with ⟨a, b⟩ | ⟨red', l', p', r', ctx', a, b⟩
    · rw [a]; simp only [List.cons_append]; rw [b]; cases fuel <;> simp [drain]
    · rw [a, ih red' l' r' p' ctx' (by rw [← b]; omega), ← b]; rfl

theorem drain_start {P : Type} (t : T P) (fuel : Nat) (h : (inorder t).length ≤ fuel) :
    drain fuel (iterStart t) = some (inorder t) := by
  cases t with
  | nil => cases fuel <;> rfl
  | node red l p r =>
    obtain ⟨red', p', r', pre, e1, e2, e3, -⟩ := leftmost_spec (.node red l p r) [] (by simp)
    simp only [iterStart, e1, List.append_nil]
    rw [drain_spec fuel _ _ _ _ _ (by rw [← e3]; exact h), e3]

theorem iterate_spec {K V : Type} {cmp : K → K → Int} {t : Tree K V} (g : Good cmp t) :
    iterate t = some (inorder t.root) := by
  unfold iterate
  split
  · rename_i h
    have := g.size
    rw [h] at this
    rw [List.length_eq_zero_iff.mp this.symm]
  · exact drain_start _ _ (by rw [g.size]; omega)

/-! ## Remove -/

/-- The payload of a frame is irrelevant to balance. -/
theorem ctxOk_pay {P : Type} (pre : List (Frame P)) (f : Frame P) (q : P) (ctx : List (Frame P)) : ∀ n,
    CtxOk (pre ++ f :: ctx) n → CtxOk (pre ++ { f with pay := q } :: ctx) n := by
  have hp : ∀ pre : List (Frame P), parentRed (pre ++ { f with pay := q } :: ctx) = parentRed (pre ++ f :: ctx) := by
    intro pre; cases pre <;> rfl
  induction pre with
  | nil => intro n h; exact h
  | cons g pre ih =>
    intro n h
    obtain ⟨h1, h2, h3⟩ := h
    refine ⟨h1, fun hr => ⟨(h2 hr).1, (hp pre).trans (h2 hr).2.1, by simp⟩, ih _ h3⟩

theorem hole_child {P : Type} {x : T P} {m : Nat} (h : Ok x m) : Hole x m := by
  cases x with
  | nil => right; exact ⟨rfl, h⟩
  | node red l p r =>
    cases red
    · right; exact ⟨rfl, h⟩
    · left; exact ⟨rfl, m, rfl, h.2.2⟩

/-- Splicing out a node with at most one child. -/
theorem splice_spec {P : Type} (yred : Bool) (x : T P) (ctx : List (Frame P)) (m : Nat)
    (hx : if yred then Ok x m ∧ x.isRed = false else ∃ k, m = k + 1 ∧ Ok x k) (hc : CtxOk ctx m)
    (h3 : parentRed ctx = true → yred = false) (h4 : ctx = [] → yred = false) :
    ∃ root k, (if yred then some (plug x ctx) else removeFix (2 * ctx.length + 2) x ctx ctx.isEmpty) = some root ∧
      Ok root k ∧ root.isRed = false ∧ inorder root = lft ctx ++ inorder x ++ rgt ctx := by
  cases yred
  · obtain ⟨k, rfl, hk⟩ := hx
    obtain ⟨t, j, e1, e2, e3, e4⟩ := removeFix_spec (2 * ctx.length + 2) x ctx ctx.isEmpty k (by split <;> omega) (hole_child hk) hc
      (by intro h; left; simpa using h) (by intro h; simp [h])
    exact ⟨t, j, by simpa using e1, e2, e3, e4⟩
  · obtain ⟨h1, h2⟩ := hx
    obtain ⟨k, e1, e2⟩ := ok_plug ctx x m h1 hc (fun _ => h2) (fun _ => h2)
    exact ⟨_, k, by simp, e1, e2, inorder_plug _ _⟩

theorem lft_append {P : Type} (a b : List (Frame P)) : lft (a ++ b) = lft b ++ lft a := by
  induction a with
  | nil => simp [lft]
  | cons x a ih => simp [lft, ih]

theorem rgt_append {P : Type} (a b : List (Frame P)) : rgt (a ++ b) = rgt a ++ rgt b := by
  induction a with
  | nil => simp [rgt]
  | cons x a ih => simp [rgt, ih]

theorem remove_spec {K V : Type} {cmp : K → K → Int} (h : TotalPreorder cmp) {t : Tree K V} (g : Good cmp t) (key : K) :
    ∃ t', remove cmp t key = some (t', (inorder t.root).find? (CMap.hit (F cmp) key)) ∧ Good cmp t' ∧
      inorder t'.root = (inorder t.root).filter (fun p => !CMap.hit (F cmp) key p) := by
  obtain ⟨n, hok⟩ := g.ok
  rcases getNode_spec h key t.root [] n hok trivial (by intro h; cases h) (fun _ => g.black)
    (by simpa [lft, rgt] using g.inc) ⟨by simp [lft], by simp [rgt]⟩ with
    ⟨e1, a, b, e2, e3⟩ | ⟨zred, zl, zp, zr, ctx, m, e1, e2, k1, k2, k3, k4, e3⟩
  · simp only [lft, rgt, List.nil_append, List.append_nil] at e2
    have hn := find_none_of_around h e3
    rw [← e2] at hn
    rw [hn]
    refine ⟨t, by simp [remove, e1], g, ?_⟩
    symm; rw [List.filter_eq_self]; intro p hp
    have := List.find?_eq_none.mp hn p hp; simpa using this
  · simp only [lft, rgt, List.nil_append, List.append_nil, inorder] at e3
    have e4 : inorder t.root = (lft ctx ++ inorder zl) ++ zp :: (inorder zr ++ rgt ctx) := by rw [e3]; simp
    have hinc := g.inc
    rw [e4] at hinc
    have hH := around_hit h (around_of_eq h hinc e2)
    have hp : CMap.hit (F cmp) key zp = true := by
      simp only [CMap.hit, F, keyEq, decide_eq_true_eq]; exact cmp_zero_symm h e2
    have hfind : (inorder t.root).find? (CMap.hit (F cmp) key) = some zp := by
      rw [e4, show ∀ a b : List (K × V), a ++ zp :: b = a ++ ([zp] ++ b) by simp, CMap.find_split hH.1 hH.2]; simp [hp]
    have hfil : (inorder t.root).filter (fun p => !CMap.hit (F cmp) key p) = lft ctx ++ inorder zl ++ (inorder zr ++ rgt ctx) := by
      rw [e4, show ∀ a b : List (K × V), a ++ zp :: b = a ++ ([zp] ++ b) by simp, CMap.filter_split hH.1 hH.2]; simp [hp]
    rw [hfind, hfil]
    have hsz : t.size ≠ 0 := by rw [g.size, e4]; simp
    -- finishing, given the new root
    have fin : ∀ root k, Ok root k → root.isRed = false → inorder root = lft ctx ++ inorder zl ++ (inorder zr ++ rgt ctx) →
        Good cmp (⟨root, t.size - 1⟩ : Tree K V) ∧ inorder root = lft ctx ++ inorder zl ++ (inorder zr ++ rgt ctx) := by
      intro root k r1 r2 r3
      refine ⟨⟨⟨k, r1⟩, r2, ?_, ?_⟩, r3⟩
      · show Increasing cmp (inorder root)
        rw [r3, ← hfil]; exact g.inc.filter _
      · show t.size - 1 = (inorder root).length
        rw [r3, g.size, e4]; simp; omega
    -- at most one child
    have one : ∀ x : T (K × V), (if zred then Ok x m ∧ x.isRed = false else ∃ k, m = k + 1 ∧ Ok x k) →
        inorder x = inorder zl ++ inorder zr →
        ∃ root, (if zred then some (plug x ctx) else removeFix (2 * ctx.length + 2) x ctx ctx.isEmpty) = some root ∧
          Good cmp (⟨root, t.size - 1⟩ : Tree K V) ∧ inorder root = lft ctx ++ inorder zl ++ (inorder zr ++ rgt ctx) := by
      intro x hx hin
      obtain ⟨root, k, r1, r2, r3, r4⟩ := splice_spec zred x ctx m hx k2 k3 k4
      exact ⟨root, r1, fin root k r2 r3 (by rw [r4, hin]; simp)⟩
    have okz : (if zred then Ok zl m ∧ zl.isRed = false else ∃ k, m = k + 1 ∧ Ok zl k) ∧
        (if zred then Ok zr m ∧ zr.isRed = false else ∃ k, m = k + 1 ∧ Ok zr k) := by
      cases zred
      · obtain ⟨k, hk, a, b⟩ := k1; exact ⟨⟨k, hk, a⟩, ⟨k, hk, b⟩⟩
      · obtain ⟨a, b, c, d⟩ := k1; exact ⟨⟨c, a⟩, ⟨d, b⟩⟩
    cases zl with
    | nil =>
      obtain ⟨root, r1, r2, r3⟩ := one zr okz.2 (by simp [inorder])
      refine ⟨⟨root, t.size - 1⟩, ?_, r2, r3⟩
      cases zr <;> cases zred <;> simp only [Bool.false_eq_true, if_false, if_true] at r1 <;>
        simp [remove, e1, r1, hsz]
    | node lred ll lp lr =>
      cases zr with
      | nil =>
        obtain ⟨root, r1, r2, r3⟩ := one (.node lred ll lp lr) okz.1 (by simp [inorder])
        refine ⟨⟨root, t.size - 1⟩, ?_, r2, r3⟩
        cases zred <;> simp only [Bool.false_eq_true, if_false, if_true] at r1 <;>
          simp [remove, e1, r1, hsz]
      | node rred rl rp rr =>
        obtain ⟨yred, yp, yr, pre, l1, l2, l3, -⟩ := leftmost_spec (.node rred rl rp rr)
          [⟨false, zred, zp, .node lred ll lp lr⟩] (by simp)
        obtain ⟨yred', yp', yr', pre', l1', l2', l3', l4'⟩ := leftmost_spec (.node rred rl rp rr)
          (⟨false, zred, zp, .node lred ll lp lr⟩ :: ctx) (by simp)
        -- the two descents coincide
        have same : ∀ (t : T (K × V)) (c d : List (Frame (K × V))), leftmost t (c ++ d) = ((leftmost t c).1, (leftmost t c).2 ++ d) := by
          intro t c
          fun_induction leftmost t c with
          | case1 red red2 l2 p2 r2 p r ctx ih => intro d; rw [leftmost]; exact ih d
          | case2 t ctx hne =>
            intro d
            cases t with
            | nil => rfl
            | node a b c d =>
              cases b with
              | nil => rfl
              | node e f g i => exact absurd rfl (hne a e f g i c d)
        have hs := same (.node rred rl rp rr) [⟨false, zred, zp, .node lred ll lp lr⟩] ctx
        simp only [List.singleton_append] at hs
        rw [l1, l1'] at hs
        simp only [Prod.mk.injEq, T.node.injEq] at hs
        obtain ⟨⟨rfl, -, rfl, rfl⟩, hs2⟩ := hs
        have hpre : pre' = pre := by
          have : pre' ++ (⟨false, zred, zp, .node lred ll lp lr⟩ :: ctx) = pre ++ (⟨false, zred, zp, .node lred ll lp lr⟩ :: ctx) := by
            rw [hs2]; simp
          exact List.append_cancel_right this
        subst hpre
        have k3' : zred = true → parentRed ctx = false ∧ ctx ≠ [] := by
          intro hz; constructor
          · cases hq : parentRed ctx
            · rfl
            · have := k3 hq; rw [hz] at this; cases this
          · intro hn; have := k4 hn; rw [hz] at this; cases this
        have hl4 : ∃ m', Ok (.node yred' .nil yp' yr') m' ∧
            CtxOk (pre' ++ ⟨false, zred, zp, .node lred ll lp lr⟩ :: ctx) m' ∧
            (parentRed (pre' ++ ⟨false, zred, zp, .node lred ll lp lr⟩ :: ctx) = true → yred' = false) ∧
            (pre' ++ (⟨false, zred, zp, .node lred ll lp lr⟩ :: ctx) = [] → yred' = false) := by
          cases zred
          · obtain ⟨⟨k, hk, a⟩, ⟨k', hk', b⟩⟩ := okz
            have : k' = k := by omega
            subst this
            exact l4' k' b ⟨a, by simp, by rw [hk] at k2; simpa using k2⟩ (by intro h; cases h) (by intro h; cases h)
          · obtain ⟨⟨a, a'⟩, ⟨b, b'⟩⟩ := okz
            exact l4' m b ⟨a, fun _ => ⟨a', k3' rfl⟩, by simpa using k2⟩ (fun _ => b') (by intro h; cases h)
        obtain ⟨m', o1, o2, o3, -⟩ := hl4
        have o2' := ctxOk_pay pre' ⟨false, zred, zp, .node lred ll lp lr⟩ yp' ctx m' o2
        have hy : (if yred' then Ok yr' m' ∧ yr'.isRed = false else ∃ k, m' = k + 1 ∧ Ok yr' k) := by
          cases yred'
          · obtain ⟨k, hk, -, b⟩ := o1; exact ⟨k, hk, b⟩
          · obtain ⟨-, b, -, d⟩ := o1; exact ⟨d, b⟩
        obtain ⟨root, k, r1, r2, r3, r4⟩ := splice_spec yred' yr'
          (pre' ++ ⟨false, zred, yp', .node lred ll lp lr⟩ :: ctx) m' hy o2'
          (by intro hq; apply o3; rw [← hq]; cases pre' <;> rfl) (by simp)
        obtain ⟨f1, f2⟩ := fin root k r2 r3 (by
          rw [r4, lft_append, rgt_append]
          simp only [lft, rgt, l2, l3', Bool.false_eq_true, if_false]
          simp)
        refine ⟨⟨root, t.size - 1⟩, ?_, f1, f2⟩
        have hctx : (pre' ++ [(⟨false, zred, zp, .node lred ll lp lr⟩ : Frame (K × V))]).dropLast ++
            ((pre' ++ [(⟨false, zred, zp, .node lred ll lp lr⟩ : Frame (K × V))]).getLast?.map (fun f => { f with pay := yp' })).toList ++ ctx =
            pre' ++ ⟨false, zred, yp', .node lred ll lp lr⟩ :: ctx := by simp
        simp only [remove, e1, next, l1, hctx]
        cases yred' <;> simp only [Bool.false_eq_true, if_false, if_true] at r1 ⊢ <;> rw [r1] <;> simp [hsz]

/-! ## Histories -/
open MapSpec (lookup Enumerates)

theorem good_new {K V : Type} (cmp : K → K → Int) : Good cmp (new : Tree K V) :=
  ⟨⟨0, rfl⟩, rfl, by simp [new, inorder, Increasing], rfl⟩

/-- Invariant over histories. -/
structure Hist {K V : Type} (cmp : K → K → Int) (h : List (MapSpec.Op K V)) (t : Tree K V) (d : List (K × V)) : Prop where
  good : Good cmp t
  look : ∀ k, (inorder t.root).find? (CMap.hit (F cmp) k) = lookup (keyEq cmp) h k
  bal : (d ++ inorder t.root).Perm (RBSpec.insertedPairs h)

theorem post_perm {P : Type} (t : T P) : t.post.Perm (inorder t) := by
  induction t with
  | nil => exact List.Perm.refl _
  | node red l p r ihl ihr =>
    simp only [T.post, inorder]
    have := (ihl.append ihr).append_right [p]
    refine this.trans ?_
    rw [List.append_assoc]
    refine List.Perm.append_left _ ?_
    exact List.perm_append_comm

theorem step_spec {K V : Type} {cmp : K → K → Int} (hc : TotalPreorder cmp) {h : List (MapSpec.Op K V)} {t : Tree K V}
    {d : List (K × V)} (H : Hist cmp h t d) (op : MapSpec.Op K V) :
    ∃ t' d', RBSpec.stepImpl cmp t op = some (t', MapSpec.expectedReturn (keyEq cmp) h op, d') ∧
      d'.Perm (RBSpec.expectedDestroyed (keyEq cmp) h (inorder t.root) op) ∧ Hist cmp (op :: h) t' (d ++ d') := by
  have hf := F_lawful hc
  have hnd := inc_noDup hc H.good.inc
  have old : ∀ k, ((inorder t.root).find? (CMap.hit (F cmp) k)).toList ++ (inorder t.root).filter (fun p => !CMap.hit (F cmp) k p) |>.Perm
      (inorder t.root) := fun k => CMap.old_perm hf hnd k
  cases op with
  | insert k v =>
    obtain ⟨t', e, g, p⟩ := put_spec hc H.good k v
    refine ⟨t', (lookup (keyEq cmp) h k).toList, by simp only [RBSpec.stepImpl, e, MapSpec.expectedReturn, H.look],
      List.Perm.refl _, g, ?_, ?_⟩
    · intro k'
      rw [CMap.find_perm hf (CMap.filter_nodup_cons hf hnd k v) p k']
      simp only [lookup]
      by_cases hk : keyEq cmp k k' = true
      · rw [if_pos hk, List.find?_cons_of_pos (show CMap.hit (F cmp) k' (k, v) = true from hk)]
      · rw [if_neg hk, List.find?_cons_of_neg (show ¬ CMap.hit (F cmp) k' (k, v) = true from hk),
          CMap.find_filter_ne hf (by simpa [F] using hk), H.look]
    · refine (p.append_left _).trans ?_
      simp only [RBSpec.insertedPairs]
      refine List.perm_middle.trans (List.Perm.cons _ ?_)
      refine List.Perm.trans ?_ H.bal
      rw [List.append_assoc, ← H.look]
      exact (old k).append_left d
  | remove k =>
    obtain ⟨t', e, g, p⟩ := remove_spec hc H.good k
    refine ⟨t', (lookup (keyEq cmp) h k).toList, by simp only [RBSpec.stepImpl, e, MapSpec.expectedReturn, H.look]; rfl,
      List.Perm.refl _, g, ?_, ?_⟩
    · intro k'
      rw [p]
      simp only [lookup]
      by_cases hk : keyEq cmp k k' = true
      · rw [if_pos hk, CMap.find_filter_eq hf hk]
      · rw [if_neg hk, CMap.find_filter_ne hf (by simpa [F] using hk), H.look]
    · rw [p]
      simp only [RBSpec.insertedPairs]
      refine List.Perm.trans ?_ H.bal
      rw [List.append_assoc, ← H.look]
      exact (old k).append_left d
  | clear =>
    refine ⟨new, _, rfl, post_perm _, good_new cmp, fun k => rfl, ?_⟩
    simp only [RBSpec.insertedPairs]
    refine List.Perm.trans ?_ H.bal
    simp only [new, inorder, List.append_nil]
    exact (post_perm _).append_left d

theorem run_spec {K V : Type} {cmp : K → K → Int} (hc : TotalPreorder cmp) (h : List (MapSpec.Op K V)) :
    ∃ t d, RBSpec.runImpl cmp h = some (t, d) ∧ Hist cmp h t d := by
  induction h with
  | nil => exact ⟨new, [], rfl, good_new cmp, fun k => rfl, List.Perm.refl _⟩
  | cons op h ih =>
    obtain ⟨t, d, e, H⟩ := ih
    obtain ⟨t', d', e', -, H'⟩ := step_spec hc H op
    exact ⟨t', d ++ d', by simp [RBSpec.runImpl, e, e'], H'⟩

/-! ## Balance -/

theorem ok_isRedBlack {P : Type} (t : T P) : ∀ n, Ok t n → NoRedRed t ∧ ∀ c ∈ blackCounts t, c = n := by
  induction t with
  | nil => intro n h; simp only [Ok] at h; subst h; simp [NoRedRed, blackCounts]
  | node red l p r ihl ihr =>
    intro n h
    cases red
    · obtain ⟨m, rfl, a, b⟩ := h
      refine ⟨⟨by simp, (ihl m a).1, (ihr m b).1⟩, ?_⟩
      intro c hc
      simp only [blackCounts, List.mem_map, List.mem_append] at hc
      obtain ⟨x, hx | hx, rfl⟩ := hc
      · rw [(ihl m a).2 x hx]; rfl
      · rw [(ihr m b).2 x hx]; rfl
    · obtain ⟨a1, a2, a, b⟩ := h
      refine ⟨⟨fun _ => ⟨a1, a2⟩, (ihl n a).1, (ihr n b).1⟩, ?_⟩
      intro c hc
      simp only [blackCounts, List.mem_map, List.mem_append] at hc
      obtain ⟨x, hx | hx, rfl⟩ := hc
      · rw [(ihl n a).2 x hx]; rfl
      · rw [(ihr n b).2 x hx]; rfl

theorem ok_height {P : Type} (t : T P) : ∀ n, Ok t n →
    2 ^ n ≤ (inorder t).length + 1 ∧ height t ≤ 2 * n + (if t.isRed then 1 else 0) := by
  induction t with
  | nil => intro n h; simp only [Ok] at h; subst h; simp [inorder, height]
  | node red l p r ihl ihr =>
    intro n h
    cases red
    · obtain ⟨m, rfl, a, b⟩ := h
      obtain ⟨l1, l2⟩ := ihl m a
      obtain ⟨r1, r2⟩ := ihr m b
      refine ⟨by simp only [inorder, List.length_append, List.length_cons, Nat.pow_succ]; omega, ?_⟩
      simp only [height, isRed_node, Bool.false_eq_true, if_false]
      have hb : ∀ t : T P, (if t.isRed = true then 1 else 0) ≤ 1 := by intro t; split <;> omega
      have := hb l; have := hb r
      omega
    · obtain ⟨a1, a2, a, b⟩ := h
      obtain ⟨l1, l2⟩ := ihl n a
      obtain ⟨r1, r2⟩ := ihr n b
      refine ⟨by simp only [inorder, List.length_append, List.length_cons]; omega, ?_⟩
      rw [a1] at l2; rw [a2] at r2
      simp only [Bool.false_eq_true, if_false] at l2 r2
      simp only [height, isRed_node, if_true]
      omega

/-! ## Copy -/

theorem copyLoop_spec {P : Type} (nodes : List P) (half : Nat) (hh : nodes.length = 2 * half) : ∀ n i, i + n = half →
    ∃ l, copyLoop nodes half i n = some l ∧ l.Perm (nodes.take (half - i) ++ nodes.drop (half + i)) := by
  intro n
  induction n with
  | zero =>
    intro i hi
    refine ⟨[], rfl, ?_⟩
    rw [show half - i = 0 by omega, List.drop_eq_nil_of_le (by omega)]; simp
  | succ n ih =>
    intro i hi
    obtain ⟨l, e, hp⟩ := ih (i + 1) (by omega)
    have h1 : half + i < nodes.length := by omega
    have h2 : half - i - 1 < nodes.length := by omega
    refine ⟨nodes[half + i] :: nodes[half - i - 1] :: l, by simp [copyLoop, CMem.read_eq h1, CMem.read_eq h2, e], ?_⟩
    have t1 : nodes.take (half - i) = nodes.take (half - (i + 1)) ++ [nodes[half - i - 1]] := by
      have : half - i = (half - i - 1) + 1 := by omega
      conv => lhs; rw [this]
      rw [List.take_succ_eq_append_getElem h2]; rfl
    have t2 : nodes.drop (half + i) = nodes[half + i] :: nodes.drop (half + (i + 1)) := List.drop_eq_getElem_cons h1
    rw [t1, t2]
    have step1 := (hp.cons nodes[half - i - 1]).cons nodes[half + i]
    refine step1.trans ?_
    refine List.Perm.trans ?_ List.perm_middle.symm
    refine List.Perm.cons _ ?_
    simp only [List.append_assoc, List.singleton_append]
    exact List.perm_middle.symm

/-- Putting pairs of an increasing list `s`, possibly repeatedly. -/
theorem putAll_spec {K V : Type} {cmp : K → K → Int} (hc : TotalPreorder cmp) (s : List (K × V)) (hs : Increasing cmp s)
    (l : List (K × V)) : ∀ t : Tree K V, Good cmp t → (∀ p ∈ inorder t.root, p ∈ s) → (∀ p ∈ l, p ∈ s) →
    ∃ t', putAll cmp t l = some t' ∧ Good cmp t' ∧ ∀ p, p ∈ inorder t'.root ↔ p ∈ inorder t.root ∨ p ∈ l := by
  have hf := F_lawful hc
  induction l with
  | nil => intro t g _ _; exact ⟨t, rfl, g, by simp⟩
  | cons p l ih =>
    intro t g ht hl
    obtain ⟨t1, e1, g1, p1⟩ := put_spec hc g p.1 p.2
    -- an element of s with the same key is p
    have key : ∀ q ∈ s, CMap.hit (F cmp) p.1 q = true → q = p := by
      intro q hq hit
      apply Classical.byContradiction
      intro hne
      have hp : p ∈ s := hl p (by simp)
      have h0 : cmp q.1 p.1 = 0 := by simpa [CMap.hit, F, keyEq] using hit
      have h1 : cmp p.1 q.1 = 0 := cmp_zero_symm hc h0
      have : ∀ l : List (K × V), Increasing cmp l → p ∈ l → q ∈ l → False := by
        intro l
        induction l with
        | nil => intro _ h; simp at h
        | cons x l ih =>
          intro hi h1' h2'
          have hi' := List.pairwise_cons.mp hi
          rcases List.mem_cons.mp h1' with rfl | h1'' <;> rcases List.mem_cons.mp h2' with h3 | h2''
          · exact hne h3
          · have := hi'.1 q h2''; omega
          · subst h3; have := hi'.1 p h1''; omega
          · exact ih hi'.2 h1'' h2''
      exact this s hs hp hq
    have m1 : ∀ q, q ∈ inorder t1.root ↔ q ∈ inorder t.root ∨ q = p := by
      intro q
      rw [p1.mem_iff]
      simp only [List.mem_cons, List.mem_filter]
      constructor
      · rintro (h | h)
        · exact Or.inr h
        · exact Or.inl h.1
      · rintro (h | h)
        · by_cases hh : CMap.hit (F cmp) p.1 q = true
          · exact Or.inl (key q (ht q h) hh)
          · exact Or.inr ⟨h, by simpa using hh⟩
        · exact Or.inl h
    obtain ⟨t2, e2, g2, p2⟩ := ih t1 g1 (by
      intro q hq
      rcases (m1 q).mp hq with h | rfl
      · exact ht q h
      · exact hl q (by simp)) (fun q hq => hl q (by simp [hq]))
    refine ⟨t2, by simp [putAll, e1, e2], g2, fun q => ?_⟩
    rw [p2 q, m1 q]; simp only [List.mem_cons]
    constructor
    · rintro ((h | h) | h)
      · exact Or.inl h
      · exact Or.inr (Or.inl h)
      · exact Or.inr (Or.inr h)
    · rintro (h | h | h)
      · exact Or.inl (Or.inl h)
      · exact Or.inl (Or.inr h)
      · exact Or.inr h

/-- Two increasing lists with the same elements are the same list. -/
theorem increasing_unique {K V : Type} {cmp : K → K → Int} (hc : TotalPreorder cmp) (l1 : List (K × V)) : ∀ l2, Increasing cmp l1 →
    Increasing cmp l2 → (∀ p, p ∈ l1 ↔ p ∈ l2) → l1 = l2 := by
  have irr : ∀ (l : List (K × V)) a, Increasing cmp (a :: l) → a ∉ l := by
    intro l a h hm
    have := (List.pairwise_cons.mp h).1 a hm
    rw [hc.refl] at this; omega
  induction l1 with
  | nil =>
    intro l2 _ _ hp
    cases l2 with
    | nil => rfl
    | cons b l2 => exact absurd ((hp b).mpr (by simp)) (by simp)
  | cons a l1 ih =>
    intro l2 h1 h2 hp
    cases l2 with
    | nil => exact absurd ((hp a).mp (by simp)) (by simp)
    | cons b l2 =>
      have h1' := List.pairwise_cons.mp h1
      have h2' := List.pairwise_cons.mp h2
      have hab : a = b := by
        apply Classical.byContradiction
        intro hne
        have ha : a ∈ b :: l2 := (hp a).mp (by simp)
        have hb : b ∈ a :: l1 := (hp b).mpr (by simp)
        rcases List.mem_cons.mp ha with h | ha
        · exact hne h
        · rcases List.mem_cons.mp hb with h | hb
          · exact hne h.symm
          · have x := h2'.1 a ha
            have y := h1'.1 b hb
            have := (hc.swap b.1 a.1).mpr y
            omega
      subst hab
      rw [ih l2 h1'.2 h2'.2]
      intro p
      have := hp p
      simp only [List.mem_cons] at this
      constructor
      · intro h
        rcases this.mp (Or.inr h) with rfl | h'
        · exact absurd h (irr l1 p h1)
        · exact h'
      · intro h
        rcases this.mpr (Or.inr h) with rfl | h'
        · exact absurd h (irr l2 p h2)
        · exact h'

/-- What ends up in the copy. -/
theorem copyOrder_spec {P : Type} (s : List P) : ∃ l, copyOrder s = some l ∧
    ∀ p, p ∈ l ↔ p ∈ (if s.length % 2 = 1 ∧ s.length ≠ 1 then s.dropLast else s) := by
  unfold copyOrder
  by_cases ho : s.length % 2 = 1
  · rw [if_pos (by omega)]
    have hm : s.length / 2 < s.length := by omega
    have hd : s.dropLast.length = 2 * ((s.length - 1) / 2) := by simp; omega
    obtain ⟨l, e, hp⟩ := copyLoop_spec s.dropLast ((s.length - 1) / 2) hd ((s.length - 1) / 2) 0 (by omega)
    -- the loop only reads below the last element
    have same : ∀ n i, i + n = (s.length - 1) / 2 → copyLoop s ((s.length - 1) / 2) i n = copyLoop s.dropLast ((s.length - 1) / 2) i n := by
      intro n
      induction n with
      | zero => intro i _; rfl
      | succ n ih =>
        intro i hi
        have a1 : (s.length - 1) / 2 + i < s.dropLast.length := by omega
        have a2 : (s.length - 1) / 2 - i - 1 < s.dropLast.length := by omega
        have b1 : (s.length - 1) / 2 + i < s.length := by omega
        have b2 : (s.length - 1) / 2 - i - 1 < s.length := by omega
        simp only [copyLoop, CMem.read_eq a1, CMem.read_eq a2, CMem.read_eq b1, CMem.read_eq b2, List.getElem_dropLast,
          ih (i + 1) (by omega)]
    refine ⟨s[s.length / 2] :: l, by simp only [CMem.read_eq hm, same ((s.length - 1) / 2) 0 (by omega), e]; rfl, ?_⟩
    intro p
    have hmem : p ∈ l ↔ p ∈ s.dropLast := by
      rw [hp.mem_iff]; simp
    simp only [List.mem_cons, hmem]
    by_cases h1 : s.length = 1
    · rw [if_neg (by simp [h1])]
      match s, h1 with
      | [x], _ => simp
    · rw [if_pos ⟨ho, h1⟩]
      constructor
      · rintro (rfl | h)
        · have hb : s.length / 2 < s.dropLast.length := by simp; omega
          rw [← List.getElem_dropLast hb]; exact List.getElem_mem hb
        · exact h
      · exact Or.inr
  · rw [if_neg (by omega), if_neg (by simp [ho])]
    obtain ⟨l, e, hp⟩ := copyLoop_spec s (s.length / 2) (by omega) (s.length / 2) 0 (by omega)
    exact ⟨l, e, by intro p; rw [hp.mem_iff]; simp⟩

theorem copy_spec {K V : Type} {cmp : K → K → Int} (hc : TotalPreorder cmp) {t : Tree K V} (g : Good cmp t) (filter : K × V → Bool)
    (hne : t.root ≠ .nil) : ∃ t', copy cmp filter t = some t' ∧ Good cmp t' ∧ inorder t'.root =
      (if ((inorder t.root).filter filter).length % 2 = 1 ∧ ((inorder t.root).filter filter).length ≠ 1 then
        ((inorder t.root).filter filter).dropLast else (inorder t.root).filter filter) := by
  have hs : Increasing cmp ((inorder t.root).filter filter) := g.inc.filter _
  generalize hS : (inorder t.root).filter filter = s at hs ⊢
  obtain ⟨l, e, hl⟩ := copyOrder_spec s
  have hsub : ∀ p, p ∈ (if s.length % 2 = 1 ∧ s.length ≠ 1 then s.dropLast else s) → p ∈ s := by
    intro p; split
    · exact fun h => (List.dropLast_sublist s).subset h
    · exact id
  obtain ⟨t', e', g', hm⟩ := putAll_spec hc s hs l new (good_new cmp) (by simp [new, inorder]) (fun p hp => hsub p ((hl p).mp hp))
  refine ⟨t', ?_, g', ?_⟩
  · have hd := drain_start t.root (t.size + 1) (by rw [g.size]; omega)
    cases hr : t.root with
    | nil => exact absurd hr hne
    | node a b c d =>
      rw [hr] at hd hS
      simp [copy, hr, hd, hS, e, e']
  · refine increasing_unique hc _ _ g'.inc ?_ ?_
    · split
      · exact hs.sublist (List.dropLast_sublist s)
      · exact hs
    · intro p; rw [hm p, hl p]; simp [new, inorder]

theorem equalLoop_spec {K V : Type} (cmp : K → K → Int) (vcmp : V → V → Int) (l1 : List (K × V)) : ∀ l2 : List (K × V), l1.length = l2.length →
    (equalLoop cmp vcmp l1 l2 = true ↔ ∀ x ∈ l1.zip l2, cmp x.1.1 x.2.1 = 0 ∧ vcmp x.1.2 x.2.2 = 0) := by
  induction l1 with
  | nil =>
    intro l2 h
    cases l2 with
    | nil => simp [equalLoop]
    | cons b l2 => simp at h
  | cons a l1 ih =>
    intro l2 h
    cases l2 with
    | nil => simp at h
    | cons b l2 =>
      simp only [equalLoop, List.zip_cons_cons, List.forall_mem_cons]
      rw [← ih l2 (by simpa using h)]
      split
      · rename_i hc
        constructor
        · intro h; cases h
        · intro ⟨⟨h1, h2⟩, _⟩; rcases hc with hc | hc <;> contradiction
      · rename_i hc
        simp only [ne_eq, not_or, Decidable.not_not] at hc
        simp [hc]

end RB
