import Verif.Lemmas.Getopt
/-! # getopt, getopt_long, getopt_long_only (C101, C102) -/
open Getopt Getopt.Spec

/-- C101, C102. Calling getopt (no long options), getopt_long or getopt_long_only until it returns -1, from the beginning (`optind` zero, any other static state), on any
vector: no access is out of bounds, the calls end, they give exactly the results of reading the words left to right, the vector ends up as program name, option words in their
order, operands in their order, and `optind` is the index of the first operand.

Hypotheses: the declared options do not include byte 255 (it would be returned as -1) nor long options returning -1; and if the option string begins with '+' or '-', this
character does not occur in a word of short options and the rest does not begin with ':' (see `C101_prefix_forgotten`). -/
theorem C101_reading_partial (posix : Bool) (pre : Prefix) (os : Str) (long : Option (List LongOpt)) (longOnly : Bool) (a0 : Str) (args : List Str) (s : St)
    (hs : s.argv = a0 :: args) (h0 : s.optind = 0)
    (hos : pre = .none → os.head? ≠ some 43 ∧ os.head? ≠ some 45)
    (hff : 255 ∉ os) (hvals : ∀ ls, long = some ls → ∀ p ∈ ls, p.flag = false → p.val ≠ -1)
    (hpre : ∀ c ∈ pre.bytes, (∀ a ∈ args, c ∉ shortText long a) ∧ os.head? ≠ some 58) :
    ∃ s', Run posix (pre.bytes ++ os) long longOnly s (reading (pre.ordering posix) os long longOnly args).calls s' ∧
      s'.argv = a0 :: ((reading (pre.ordering posix) os long longOnly args).options ++ (reading (pre.ordering posix) os long longOnly args).operands) ∧
      s'.optind = 1 + (reading (pre.ordering posix) os long longOnly args).options.length := by
  have hk1 : Ok os os long args := ⟨fun _ _ => Agree.refl _ _, Iff.rfl, hff, hvals⟩
  have hk : Ok (pre.bytes ++ os) os long args := by
    have key : ∀ c, pre.bytes = [c] → c ≠ 58 → Ok (pre.bytes ++ os) os long args := by
      intro c hc hne
      have hp := hpre c (by rw [hc]; simp)
      have hcol : (pre.bytes ++ os).head? = some 58 ↔ os.head? = some 58 := by
        rw [hc]; simp [hne, hp.2]
      refine ⟨fun a ha => ⟨fun x hx => ?_, hcol⟩, hcol, hff, hvals⟩
      have : c ≠ x := fun e => hp.1 a ha (e ▸ hx)
      rw [hc, List.singleton_append, index, if_neg this]
    cases pre with
    | none => exact hk1
    | plus => exact key 43 rfl (by decide)
    | minus => exact key 45 rfl (by decide)
  have hb : Bnd (initState posix s (pre.bytes ++ os)).1 (pre.ordering posix) a0 [] [] [] args ∧ (initState posix s (pre.bytes ++ os)).2 = os := by
    have h : ∀ ord : Getopt.Ordering, Bnd { s with first := 1, last := 1, optind := 1, next := none, ord := ord } ord a0 [] [] [] args := fun ord =>
      ⟨⟨by simpa using hs, rfl, rfl, rfl, rfl, fun _ => rfl⟩, .inl rfl⟩
    cases pre with
    | none =>
      have := hos rfl
      rw [initState]
      simp only [Prefix.bytes, List.nil_append, this.1, this.2, if_false, Prefix.ordering]
      cases posix with
      | true => exact ⟨h _, rfl⟩
      | false => exact ⟨h _, rfl⟩
    | plus => exact ⟨h _, rfl⟩
    | minus => exact ⟨h _, rfl⟩
  have := body_ok posix (pre.ordering posix) (pre.bytes ++ os) os long longOnly args.length args (Nat.le_refl _) _ a0 [] [] [] os hb.1 hk hk1
  have hcall : call posix (pre.bytes ++ os) long longOnly s = body os long longOnly (initState posix s (pre.bytes ++ os)).1 := by
    rw [call, if_pos h0, hb.2]
  rw [← hcall] at this
  obtain ⟨s', h1, h2, h3⟩ := this.run
  exact ⟨s', h1, by simpa using h2, by simpa using h3⟩

/-- C101. What a program sees is determined: from a state there is only one sequence of calls up to -1. -/
theorem C101_deterministic {posix : Bool} {o : Str} {long : Option (List LongOpt)} {longOnly : Bool} {s : St} {cs cs' : List Call} {s1 s2 : St}
    (h : Run posix o long longOnly s cs s1) (h' : Run posix o long longOnly s cs' s2) : cs = cs' ∧ s1 = s2 := by
  induction h generalizing cs' with
  | eof e hr =>
    cases h' with
    | eof e' _ => rw [e] at e'; cases e'; exact ⟨rfl, rfl⟩
    | more e' hr' _ => rw [e] at e'; cases e'; exact absurd hr hr'
  | more e hr _ ih =>
    cases h' with
    | eof e' hr' => rw [e] at e'; cases e'; exact absurd hr' hr
    | more e' _ h2 => rw [e] at e'; cases e'; obtain ⟨h3, h4⟩ := ih h2; exact ⟨by rw [h3], h4⟩

/-- C102. No word is lost, duplicated or changed: the options and the operands together are the words given, each in its order. -/
theorem C102_words_kept (ord : Getopt.Ordering) (os : Str) (long : Option (List LongOpt)) (longOnly : Bool) : ∀ args : List Str,
    (reading ord os long longOnly args).options.Sublist args ∧ (reading ord os long longOnly args).operands.Sublist args ∧
    ((reading ord os long longOnly args).options ++ (reading ord os long longOnly args).operands).Perm args := by
  have key : ∀ (n : Nat) (args : List Str), args.length ≤ n → (reading ord os long longOnly args).options.Sublist args ∧ (reading ord os long longOnly args).operands.Sublist args ∧
      ((reading ord os long longOnly args).options ++ (reading ord os long longOnly args).operands).Perm args := by
   intro n
   induction n with
   | zero =>
    intro args h
    have : args = [] := List.length_eq_zero_iff.mp (by omega)
    subst this; rw [reading]; exact ⟨.slnil, .slnil, .nil⟩
   | succ n ih =>
    intro args hn
    cases args with
    | nil => rw [reading]; exact ⟨.slnil, .slnil, .nil⟩
    | cons a as =>
      by_cases hd : a = [45, 45]
      · rw [reading.eq_def]; simp only [hd, if_true]
        exact ⟨by simp, by simp, by simp⟩
      · obtain ⟨i1, i2, i3⟩ := ih as (by simp at hn; omega)
        by_cases ho : operand a
        · rw [reading.eq_def]
          simp only [hd, ho, if_false, if_true]
          cases ord with
          | require => exact ⟨by simp, by simp, by simp⟩
          | permute => exact ⟨.cons _ i1, .cons_cons _ i2, (List.perm_middle).trans (.cons _ i3)⟩
          | inOrder => exact ⟨.cons_cons _ i1, .cons _ i2, .cons _ i3⟩
        · rw [reading_word hd ho]
          cases h : (word os long longOnly a as.head?).2 with
          | false => exact ⟨by simpa [after] using i1, by simpa [after] using .cons _ i2, by simpa [after] using i3⟩
          | true =>
            cases as with
            | nil => exact ⟨by simpa [after] using i1, by simpa [after] using .cons _ i2, by simpa [after] using i3⟩
            | cons b as =>
              obtain ⟨i1, i2, i3⟩ := ih as (by simp at hn; omega)
              exact ⟨by simpa [after] using i1, by simpa [after] using .cons _ (.cons _ i2), by simpa [after] using i3⟩
  exact fun args => key _ args (Nat.le_refl _)

/-! Non-vacuity: `prog f -a -b v g --long=w -- -x` with "ab:" and a long option `longer`. -/
def C101_args : List Str := [[102], [45, 97], [45, 98], [118], [103], [45, 45, 108, 111, 110, 103, 61, 119], [45, 45], [45, 120]]
def C101_long : List LongOpt := [⟨[108, 111, 110, 103, 101, 114], 1, false, 300⟩]

example : reading .permute [97, 98, 58] (some C101_long) false C101_args =
    ⟨[{ ret := 97 }, { ret := 98, optarg := some [118] }, { ret := 300, optarg := some [119], longind := some 0 }],
      [[45, 97], [45, 98], [118], [45, 45, 108, 111, 110, 103, 61, 119], [45, 45]], [[102], [103], [45, 120]]⟩ := by decide +kernel

example : ∃ s', Run false [97, 98, 58] (some C101_long) false { argv := [112] :: C101_args }
      [{ ret := 97 }, { ret := 98, optarg := some [118] }, { ret := 300, optarg := some [119], longind := some 0 }] s' ∧
      s'.argv = [112] :: [[45, 97], [45, 98], [118], [45, 45, 108, 111, 110, 103, 61, 119], [45, 45], [102], [103], [45, 120]] ∧ s'.optind = 6 := by
  have hr : reading .permute [97, 98, 58] (some C101_long) false C101_args =
    ⟨[{ ret := 97 }, { ret := 98, optarg := some [118] }, { ret := 300, optarg := some [119], longind := some 0 }],
      [[45, 97], [45, 98], [118], [45, 45, 108, 111, 110, 103, 61, 119], [45, 45]], [[102], [103], [45, 120]]⟩ := by decide +kernel
  have := C101_reading_partial false .none [97, 98, 58] (some C101_long) false [112] C101_args { argv := [112] :: C101_args } rfl rfl (fun _ => by decide) (by decide)
    (fun ls h => by cases h; decide) (fun c hc => by cases hc)
  have ho : Prefix.ordering false .none = .permute := rfl
  rw [ho, hr] at this
  exact this

/-- What the first `n` calls give. -/
def C101_calls (o : Str) : Nat → St → List (Option Call)
  | 0, _ => []
  | n + 1, s => match call false o none false s with
    | none => [none]
    | some (s', c) => some c :: C101_calls o n s'

/-- C101 finding. The '+' or '-' that selects the ordering is skipped in the first call only; in later calls it is an option character, so `-+` is an unknown option as the
first word and a known one as the second; and a ':' behind it is not seen, so a missing argument is reported as ':' by the first call and as '?' by later ones. -/
theorem C101_prefix_forgotten :
    C101_calls [43, 97] 2 { argv := [[112], [45, 43], [45, 43]] } = [some { ret := 63, optopt := some 43 }, some { ret := 43 }] ∧
    C101_calls [43, 58, 97, 58] 1 { argv := [[112], [45, 97]] } = [some { ret := 58, optopt := some 97 }] ∧
    C101_calls [43, 58, 98, 97, 58] 2 { argv := [[112], [45, 98], [45, 97]] } = [some { ret := 98 }, some { ret := 63, optopt := some 97 }] := by
  decide +kernel

/-- C101 finding. An option declared as byte 255 is returned as -1, which ends the program's loop. -/
theorem C101_byte_255_ends : C101_calls [255] 1 { argv := [[112], [45, 255], [45, 255]] } = [some { ret := -1 }] := by decide +kernel

namespace Getopt
theorem swapSeg_perm : ∀ (n : Nat) (l : List Str) (i j : Nat) (l' : List Str), swapSeg l i j n = some l' → l'.Perm l := by
  intro n
  induction n with
  | zero => intro l i j l' h; cases h; exact .refl _
  | succ n ih =>
    intro l i j l' h
    rw [swapSeg] at h
    cases hi : l[i]? with
    | none => rw [hi] at h; cases h
    | some a =>
      cases hj : l[j]? with
      | none => rw [hi, hj] at h; cases h
      | some b =>
        rw [hi, hj] at h
        refine (ih _ _ _ _ h).trans ?_
        obtain ⟨h1, rfl⟩ := List.getElem?_eq_some_iff.mp hi
        obtain ⟨h2, rfl⟩ := List.getElem?_eq_some_iff.mp hj
        exact List.set_set_perm h1 h2

theorem exLoop_perm : ∀ (n : Nat) (l : List Str) (b m t : Nat) (l' : List Str), t - b ≤ n → exLoop l b m t = some l' → l'.Perm l := by
  intro n
  induction n with
  | zero => intro l b m t l' hn h; rw [exLoop, if_neg (by omega)] at h; cases h; exact .refl _
  | succ n ih =>
    intro l b m t l' hn h
    rw [exLoop] at h
    split at h
    · split at h
      · cases hs : swapSeg l b (t - (m - b)) (m - b) with
        | none => rw [hs] at h; cases h
        | some l1 => rw [hs] at h; exact (ih _ _ _ _ _ (by omega) h).trans (swapSeg_perm _ _ _ _ _ hs)
      · cases hs : swapSeg l b m (t - m) with
        | none => rw [hs] at h; cases h
        | some l1 => rw [hs] at h; exact (ih _ _ _ _ _ (by omega) h).trans (swapSeg_perm _ _ _ _ _ hs)
    · cases h; exact .refl _

theorem exchange_perm {s s' : St} (h : exchange s = some s') : s'.argv.Perm s.argv := by
  rw [exchange] at h
  cases he : exLoop s.argv s.first s.last s.optind with
  | none => rw [he] at h; cases h
  | some l => rw [he] at h; cases h; exact exLoop_perm _ _ _ _ _ _ (Nat.le_refl _) he

theorem permute_perm {s s' : St} (h : permute s = some s') : s'.argv.Perm s.argv := by
  rw [permute] at h
  split at h
  · have key : ∀ x : Option St, (∀ t, x = some t → t.argv.Perm s.argv) → (x.bind fun s => (skip s.argv s.optind).bind fun i => some { s with optind := i, last := i }) = some s' →
        s'.argv.Perm s.argv := by
      intro x hx hb
      cases x with
      | none => cases hb
      | some t =>
        simp only [Option.bind_some] at hb
        cases hk : skip t.argv t.optind with
        | none => rw [hk] at hb; cases hb
        | some i => rw [hk] at hb; cases hb; exact hx t rfl
    refine key _ ?_ h
    intro t ht
    split at ht
    · exact exchange_perm ht
    · split at ht <;> (cases ht; exact .refl _)
  · cases h; exact .refl _

theorem dashes_perm {s s' : St} (h : dashes s = some s') : s'.argv.Perm s.argv := by
  rw [dashes] at h
  split at h
  · cases ha : s.argv[s.optind]? with
    | none => rw [ha] at h; cases h
    | some a =>
      rw [ha] at h
      simp only [Option.bind_some] at h
      split at h
      · have key : ∀ x : Option St, (∀ t, x = some t → t.argv.Perm s.argv) → (x.bind fun s => some { s with last := s.argv.length, optind := s.argv.length }) = some s' →
            s'.argv.Perm s.argv := by
          intro x hx hb
          cases x with
          | none => cases hb
          | some t => cases hb; exact hx t rfl
        refine key _ ?_ h
        intro t ht
        split at ht
        · exact exchange_perm (s := { s with optind := s.optind + 1 }) ht
        · split at ht <;> (cases ht; exact .refl _)
      · cases h; exact .refl _
  · cases h; exact .refl _

theorem short_argv {o : Str} {s s' : St} {nx : Str} {c : Call} (h : short o s nx = some (s', c)) : s'.argv = s.argv := by
  rw [short.eq_def] at h
  repeat' split at h
  all_goals first
    | (cases h; rfl)
    | (cases h; done)
    | (by_cases ho : s.optind + 1 = s.argv.length
       · simp only [ho, if_true] at h; cases h; rfl
       · simp only [ho, if_false, Option.bind_eq_some_iff] at h; obtain ⟨_, _, h⟩ := h; cases h; rfl)
    | (simp only [Option.bind_eq_some_iff] at h; obtain ⟨_, _, h⟩ := h; cases h; rfl)

theorem longFound_argv {o : Str} {s s' : St} {rest : Str} {f : Nat × LongOpt} {c : Call} (h : longFound o s rest f = some (s', c)) : s'.argv = s.argv := by
  simp only [longFound] at h
  repeat' split at h
  all_goals first
    | (cases h; rfl)
    | cases h
    | (simp only [Option.bind_eq_some_iff] at h; obtain ⟨_, _, h⟩ := h; first | (cases h; rfl) | (split at h <;> (cases h; rfl)))

theorem decode_argv {o : Str} {long : Option (List LongOpt)} {longOnly : Bool} {s s' : St} {c : Call} (h : decode o long longOnly s = some (s', c)) : s'.argv = s.argv := by
  rw [decode, Option.bind_eq_some_iff] at h
  obtain ⟨nx, _, h⟩ := h
  split at h
  · exact short_argv h
  · rw [Option.bind_eq_some_iff] at h
    obtain ⟨a, _, h⟩ := h
    split at h
    · simp only at h
      split at h
      · cases h; rfl
      · split at h
        · exact longFound_argv h
        · split at h
          · cases h; rfl
          · exact short_argv h
    · exact short_argv h

theorem advance_perm {l : Bool} {s : St} {r : Adv} (h : advance l s = some r) : (match r with | .ret s' _ => s' | .go s' => s').argv.Perm s.argv := by
  rw [advance, Option.bind_eq_some_iff] at h
  obtain ⟨s1, h1, h⟩ := h
  rw [Option.bind_eq_some_iff] at h
  obtain ⟨s2, h2, h⟩ := h
  have hp := (dashes_perm h2).trans (permute_perm h1)
  split at h
  · cases h; simp only; split <;> exact hp
  · rw [Option.bind_eq_some_iff] at h
    obtain ⟨a, _, h⟩ := h
    split at h
    · split at h <;> (cases h; exact hp)
    · cases h; exact hp

end Getopt

/-- C102. Every call, in whatever state, leaves the same words in the vector. -/
theorem C102_call_permutes {posix : Bool} {o : Str} {long : Option (List LongOpt)} {longOnly : Bool} {s s' : St} {c : Call}
    (h : call posix o long longOnly s = some (s', c)) : s'.argv.Perm s.argv := by
  have body : ∀ {o : Str} {s : St}, Getopt.body o long longOnly s = some (s', c) → s'.argv.Perm s.argv := by
    intro o s h
    rw [Getopt.body] at h
    split at h
    · rw [Option.bind_eq_some_iff] at h
      obtain ⟨r, h1, h⟩ := h
      have := advance_perm h1
      cases r with
      | ret s1 c1 => cases h; exact this
      | go s1 => rw [decode_argv h]; exact this
    · rw [decode_argv h]
  rw [call] at h
  split at h
  · have hi : (initState posix s o).1.argv = s.argv := by
      rw [initState]; simp only; split
      · rfl
      · split
        · rfl
        · split <;> rfl
    rw [← hi]; exact body h
  · exact body h

/-- C102. The vector after the last call: the program name, then the options with their arguments, then the operands, both in the order given; nothing lost. -/
theorem C102_options_first (posix : Bool) (os : Str) (long : Option (List LongOpt)) (longOnly : Bool) (a0 : Str) (args : List Str) (s : St)
    (hs : s.argv = a0 :: args) (h0 : s.optind = 0) (hos : os.head? ≠ some 43 ∧ os.head? ≠ some 45)
    (hff : 255 ∉ os) (hvals : ∀ ls, long = some ls → ∀ p ∈ ls, p.flag = false → p.val ≠ -1) :
    ∃ cs s', Run posix os long longOnly s cs s' ∧ s'.argv.head? = some a0 ∧ (s'.argv.drop 1).Perm args ∧
      ((s'.argv.drop 1).take (s'.optind - 1)).Sublist args ∧ (s'.argv.drop s'.optind).Sublist args := by
  obtain ⟨s', h1, h2, h3⟩ := C101_reading_partial posix .none os long longOnly a0 args s hs h0 (fun _ => hos) hff hvals (fun c hc => by cases hc)
  obtain ⟨k1, k2, k3⟩ := C102_words_kept (Prefix.none.ordering posix) os long longOnly args
  refine ⟨_, s', h1, by rw [h2]; rfl, by rw [h2]; exact k3, ?_, ?_⟩
  · rw [h2, h3]; simpa using k1
  · rw [h2, h3, Nat.add_comm, List.drop_succ_cons, List.drop_left]; exact k2

example : ∃ cs s', Run false [97] none false { argv := [[112], [102], [45, 97]] } cs s' ∧ s'.argv.head? = some [112] ∧ (s'.argv.drop 1).Perm [[102], [45, 97]] ∧
    ((s'.argv.drop 1).take (s'.optind - 1)).Sublist [[102], [45, 97]] ∧ (s'.argv.drop s'.optind).Sublist [[102], [45, 97]] :=
  C102_options_first false [97] none false [112] [[102], [45, 97]] _ rfl rfl (by decide) (by decide) (fun ls h => by cases h)
