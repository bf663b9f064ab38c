import Verif.Model.WinPass
/-!
# C151: passing an open socket to another process on Windows (libutils/passopenfile.c, `__MINGW32__`)
-/
namespace WinPass
open WinPassSpec

/-! ## Small facts -/

theorem recv_ledger (s : St) (n : Nat) : (recv s n).1.ledger = s.ledger := by
  unfold recv; split <;> rfl

theorem recv_sent (s : St) (n : Nat) : (recv s n).1.sent = s.sent := by
  unfold recv; split <;> rfl

theorem recv_sels (s : St) (n : Nat) : (recv s n).1.env.sels = s.env.sels := by
  unfold recv; split <;> rfl

theorem send_ledger (s : St) (b : List UInt8) : (send s b).1.ledger = s.ledger := by
  unfold send; split <;> rfl

theorem waitFor_ledger (s : St) : (waitFor s).1.ledger = s.ledger := by
  unfold waitFor; split <;> rfl

theorem recv_prefix (s : St) (n : Nat) {b : List UInt8} (h : (recv s n).2 = some b) :
    s.env.input = b ++ (recv s n).1.env.input ∧ b.length ≤ n := by
  unfold recv at h ⊢
  split at h
  · simp at h
  · simp at h
  · injection h with h
    subst h
    simp
    omega

theorem send_input (s : St) (b : List UInt8) : (send s b).1.env.input = s.env.input := by
  unfold send; split <;> rfl

theorem send_wsa (s : St) (b : List UInt8) : (send s b).1.env.wsa = s.env.wsa := by
  unfold send; split <;> rfl

theorem waitFor_input (s : St) : (waitFor s).1.env.input = s.env.input := by
  unfold waitFor; split <;> rfl

theorem waitFor_sent (s : St) : (waitFor s).1.sent = s.sent := by
  unfold waitFor; split <;> rfl

theorem waitFor_wsa (s : St) : (waitFor s).1.env.wsa = s.env.wsa := by
  unfold waitFor; split <;> rfl

theorem recv_wsa (s : St) (n : Nat) : (recv s n).1.env.wsa = s.env.wsa := by
  unfold recv; split <;> rfl

theorem recv_dup (s : St) (n : Nat) : (recv s n).1.env.dup = s.env.dup := by
  unfold recv; split <;> rfl

theorem send_sent (s : St) (b : List UInt8) : ∃ k, (send s b).1.sent = s.sent ++ b.take k ∧
    ∀ n, (send s b).2 = some n → n = min k b.length := by
  unfold send
  split
  · exact ⟨0, by simp, by simp⟩
  · exact ⟨0, by simp, by simp⟩
  · rename_i k _ _
    exact ⟨k, rfl, fun n h => by simp at h; exact h.symm⟩

/-! ## The process number -/

theorem digitsRev_spec (n : Nat) : (∀ d ∈ digitsRev n, 48 ≤ d.toNat ∧ d.toNat ≤ 57) ∧ digitsRev n ≠ [] ∧
    (digitsRev n).foldr (fun d a => 10 * a + (d.toNat - 48)) 0 = n ∧
    ((digitsRev n).length > 1 → (digitsRev n).getLast? ≠ some 48) ∧ (0 < n → (digitsRev n).getLast? ≠ some 48) := by
  induction n using digitsRev.induct with
  | case1 n h =>
    rw [digitsRev.eq_def, if_pos h]
    have e : (UInt8.ofNat (48 + n)).toNat = 48 + n := by simp; omega
    refine ⟨?_, by simp, ?_, by simp, ?_⟩
    · intro d hd
      rw [List.mem_singleton] at hd
      subst hd
      omega
    · simp only [List.foldr_cons, List.foldr_nil, e]
      omega
    · intro hp hc
      simp only [List.getLast?_singleton, Option.some.injEq] at hc
      rw [hc] at e
      have : (48 : UInt8).toNat = 48 := rfl
      omega
  | case2 n h ih =>
    obtain ⟨i1, i2, i3, i4, i5⟩ := ih
    rw [digitsRev.eq_def, if_neg h]
    have e : (UInt8.ofNat (48 + n % 10)).toNat = 48 + n % 10 := by simp; omega
    have hl : (UInt8.ofNat (48 + n % 10) :: digitsRev (n / 10)).getLast? = (digitsRev (n / 10)).getLast? := by
      cases hq : digitsRev (n / 10) with
      | nil => exact absurd hq i2
      | cons a l => simp [List.getLast?_cons_cons]
    refine ⟨?_, by simp, ?_, ?_, ?_⟩
    · intro d hd
      rcases List.mem_cons.1 hd with rfl | hd
      · omega
      · exact i1 d hd
    · simp only [List.foldr_cons, i3, e]
      omega
    · intro _
      rw [hl]
      exact i5 (by omega)
    · intro _
      rw [hl]
      exact i5 (by omega)

theorem digits_decimal (n : Nat) : IsDecimal (digitsRev n).reverse n := by
  obtain ⟨i1, i2, i3, i4, _⟩ := digitsRev_spec n
  refine ⟨by simpa using i2, by simpa using i1, ?_, ?_⟩
  · simpa using i4
  · simpa [List.foldl_reverse] using i3

theorem digitsRev_len (n k : Nat) (hk : 1 ≤ k) (h : n < 10 ^ k) : (digitsRev n).length ≤ k := by
  induction n using digitsRev.induct generalizing k with
  | case1 n h1 =>
    rw [digitsRev.eq_def, if_pos h1]; simpa using hk
  | case2 n h1 ih =>
    rw [digitsRev.eq_def, if_neg h1]
    obtain ⟨j, rfl⟩ : ∃ j, k = j + 1 := ⟨k - 1, by omega⟩
    have hj : 1 ≤ j := by
      rcases Nat.eq_zero_or_pos j with rfl | hj
      · simp at h; omega
      · exact hj
    have := ih j hj (by rw [Nat.pow_succ] at h; omega)
    simp only [List.length_cons]; omega

/-- The message sent: `PID: `, the number, a newline, the terminator. -/
theorem pidMsg_eq (pid : Nat) (h : pid < 4294967296) :
    pidMsg pid = some (bytes! "PID: " ++ (digitsRev pid).reverse ++ bytes! "\n" ++ [0]) := by
  have := digitsRev_len pid 10 (by omega) (by omega)
  unfold pidMsg
  simp only
  rw [if_pos]
  simp [pidMsgSize]
  omega

theorem takeWhile_all {p : UInt8 → Bool} (l : List UInt8) (b : UInt8) (r : List UInt8) (h : ∀ x ∈ l, p x = true) (hb : p b = false) :
    (l ++ b :: r).takeWhile p = l := by
  induction l with
  | nil => simp [hb]
  | cons a l ih =>
    simp only [List.cons_append, List.takeWhile_cons, h a (by simp), if_true]
    rw [ih (fun x hx => h x (by simp [hx]))]

/-- Reading back what `PassOpenFile_Get` sends gives the number. -/
theorem scanPid_msg (ds : List UInt8) (pid : Nat) (hd : IsDecimal ds pid) (h : pid < 4294967296) (tail : List UInt8) :
    scanPid (bytes! "PID: " ++ ds ++ bytes! "\n" ++ [0] ++ tail) = some (some pid) := by
  obtain ⟨d1, d2, _, d4⟩ := hd
  have e1 : (bytes! "PID: " ++ ds ++ bytes! "\n" ++ [0] ++ tail).takeWhile (fun x => decide (x ≠ 0)) = bytes! "PID: " ++ ds ++ bytes! "\n" := by
    have := takeWhile_all (p := fun x => decide (x ≠ 0)) (bytes! "PID: " ++ ds ++ bytes! "\n") 0 tail (by
      intro x hx
      simp only [List.mem_append, List.mem_cons, List.not_mem_nil, or_false] at hx
      rcases hx with (hx | hx) | hx
      · rcases hx with rfl | rfl | rfl | rfl | rfl <;> rfl
      · have := d2 x hx
        simp only [decide_eq_true_eq]
        intro e; subst e; simp at this
      · subst hx; rfl) (by rfl)
    simpa using this
  unfold scanPid
  simp only [e1]
  cases ds with
  | nil => exact absurd rfl d1
  | cons d ds =>
    have hd0 := d2 d (by simp)
    have hns : isSpace d = false := by
      simp only [isSpace, Bool.or_eq_false_iff, Bool.and_eq_false_iff, decide_eq_false_iff_not, UInt8.le_iff_toNat_le]
      have e32 : d ≠ 32 := by intro e; subst e; simp at hd0
      refine ⟨e32, Or.inr ?_⟩
      have : (13 : UInt8).toNat = 13 := rfl
      omega
    have h45 : d ≠ 45 := by intro e; subst e; simp at hd0
    have h43 : d ≠ 43 := by intro e; subst e; simp at hd0
    have ht : (bytes! "PID: " ++ (d :: ds) ++ bytes! "\n").take 4 = bytes! "PID:" := by simp
    have hdr : ((bytes! "PID: " ++ (d :: ds) ++ bytes! "\n").drop 4).dropWhile isSpace = d :: ds ++ [10] := by
      have : isSpace 32 = true := rfl
      simp [this, hns]
    rw [if_pos ht, hdr]
    have htw : (d :: ds ++ [10]).takeWhile isDigit = d :: ds := by
      have := takeWhile_all (p := isDigit) (d :: ds) 10 [] (by
        intro x hx
        have := d2 x hx
        simp only [isDigit, Bool.and_eq_true, decide_eq_true_eq, UInt8.le_iff_toNat_le]
        exact ⟨this.1, this.2⟩) (by rfl)
      simpa using this
    simp only [List.cons_append, List.head?_cons, Option.some.injEq, h45, h43, decide_false, Bool.or_false, Bool.false_eq_true, if_false]
    simp only [List.cons_append] at htw
    rw [htw, if_neg (by simp), d4, if_pos h]

/-- `le32` reads back `u32le`. -/
theorem le32_u32le (n : Nat) (h : n < 4294967296) : le32 (u32le n) = n := by
  unfold le32 u32le
  simp
  omega

/-! ## Receiving -/

/-- What the caller owns of the text. -/
def texts : TextOut → Nat
  | .bytes _ => 1
  | _ => 0

theorem getText_null (s : St) (size : Nat) : ∃ s', getText s true size .null = some (s', .null) ∧
    s'.ledger.opened = s.ledger.opened ∧ s'.ledger.closed = s.ledger.closed ∧
    s'.ledger.allocated + s.ledger.freed = s'.ledger.freed + s.ledger.allocated ∧ s'.env.input = s.env.input ∧ s'.sent = s.sent := by
  unfold getText alloc
  split
  rename_i s1 b hb
  split at hb <;> (injection hb with h1 h2; subst h1; subst h2) <;> simp [freeBuf] <;> omega

/-- **C151** whatever the peer sends, however much of it each call moves and whichever call of the system fails: a receiver that asks for the text gets
through without undefined behaviour; every socket opened is returned or closed, once; every buffer is freed; and a socket is returned only if it was opened from
exactly the first 372 bytes that arrived, no text came with it, and the confirmation was then attempted. -/
theorem C151_received_or_closed_partial (e : Env) (pid : Nat) (hp : pid < 4294967296) :
    ∃ s r t, get e pid true = some (s, r, t) ∧ Settled s.ledger r.toList (texts t) ∧
      s.ledger.opened.length ≤ 1 ∧ (∀ b, t ≠ .bytes b) ∧
      (∀ d, r = some d → ∃ blob rest, e.input = blob ++ rest ∧ blob.length = 372 ∧ e.wsa blob = some d ∧ t = .null ∧
        ((∃ size rest', rest = size ++ rest' ∧ size.length = 4 ∧ le32 size = 0) ∨ ∃ part, part.length < 4 ∧ rest = part ++ s.env.input) ∧
        ∃ m k1 k2, pidMsg pid = some m ∧ s.sent = m.take k1 ++ (bytes! "ACK\n" ++ [0]).take k2) := by
  unfold get
  rw [pidMsg_eq pid hp]
  simp only
  generalize hm : bytes! "PID: " ++ (digitsRev pid).reverse ++ bytes! "\n" ++ [0] = m
  obtain ⟨k1, hk1, _⟩ := send_sent (start e) m
  have hl1 := send_ledger (start e) m
  have hi1 := send_input (start e) m
  have hw1 := send_wsa (start e) m
  rcases hsd : send (start e) m with ⟨s1, g1⟩
  rw [hsd] at hk1 hl1 hi1 hw1
  simp only at hk1 hl1 hi1 hw1 ⊢
  have hl2 := waitFor_ledger s1
  have hi2 := waitFor_input s1
  have hs2 := waitFor_sent s1
  have hw2 := waitFor_wsa s1
  rcases hwt : waitFor s1 with ⟨s2, x⟩
  rw [hwt] at hl2 hi2 hs2 hw2
  simp only at hl2 hi2 hs2 hw2
  have start0 : (start e).ledger = ⟨[], [], 0, 0⟩ := rfl
  have hl20 : s2.ledger = ⟨[], [], 0, 0⟩ := by rw [hl2, hl1, start0]
  cases x with
  | error => exact ⟨_, _, _, rfl, by simp [Settled, hl20, texts], by simp [hl20], by simp, by simp⟩
  | idle => exact ⟨_, _, _, rfl, by simp [Settled, hl20, texts], by simp [hl20], by simp, by simp⟩
  | ready =>
    simp only
    have hl3 := recv_ledger s2 blobSize
    have hs3 := recv_sent s2 blobSize
    have hw3 := recv_wsa s2 blobSize
    have hpre := @recv_prefix s2 blobSize
    rcases hrc : recv s2 blobSize with ⟨s3, got⟩
    rw [hrc] at hl3 hs3 hw3 hpre
    simp only at hl3 hs3 hw3 hpre ⊢
    split
    · rename_i hgot
      cases got with
      | none => simp at hgot
      | some blob =>
        simp only [Option.map_some, Option.some.injEq] at hgot
        obtain ⟨hin, _⟩ := hpre rfl
        simp only [Option.getD_some]
        have hl30 : s3.ledger = ⟨[], [], 0, 0⟩ := by rw [hl3, hl20]
        have hwsa : s3.env.wsa = e.wsa := by rw [hw3, hw2, hw1]; rfl
        have hin0 : e.input = blob ++ s3.env.input := by rw [← hin, hi2, hi1]; rfl
        unfold getBlob
        rw [hwsa]
        cases hws : e.wsa blob with
        | none => exact ⟨_, _, _, rfl, by simp [Settled, hl30, texts], by simp [hl30], by simp, by simp⟩
        | some d =>
          simp only [if_true]
          generalize hs4 : ({ s3 with ledger := { s3.ledger with opened := s3.ledger.opened ++ [d] } } : St) = s4
          have hl4 : s4.ledger = ⟨[d], [], 0, 0⟩ := by rw [← hs4, hl30]; rfl
          have hi4 : s4.env.input = s3.env.input := by rw [← hs4]
          have hst4 : s4.sent = m.take k1 := by
            rw [← hs4]; simp only; rw [hs3, hs2, hk1]; simp [start]
          have hl5 := recv_ledger s4 4
          have hs5 := recv_sent s4 4
          have hpre5 := @recv_prefix s4 4
          rcases hrc5 : recv s4 4 with ⟨s5, got5⟩
          rw [hrc5] at hl5 hs5 hpre5
          simp only at hl5 hs5 hpre5 ⊢
          have hl50 : s5.ledger = ⟨[d], [], 0, 0⟩ := by rw [hl5, hl4]
          generalize hsize : (if (got5.map List.length) = some 4 then le32 (got5.getD []) else 0) = size
          by_cases hsz : size ≠ 0
          · obtain ⟨s6, hg6, ho6, hc6, ha6, _, _⟩ := getText_null s5 size
            rw [if_pos hsz, hg6]
            simp only [decide_true, Bool.and_self, if_true]
            refine ⟨_, _, _, rfl, ?_, ?_, by simp, by simp⟩
            · simp only [Settled, closeSock, texts, ho6, hc6, hl50]
              rw [hl50] at ha6
              simp only at ha6
              exact ⟨by simp, by omega⟩
            · simp [closeSock, ho6, hl50]
          · rw [if_neg hsz]
            simp only
            have hl6 := waitFor_ledger s5
            have hi6 := waitFor_input s5
            have hs6 := waitFor_sent s5
            rcases hwt6 : waitFor s5 with ⟨s6, x6⟩
            rw [hwt6] at hl6 hi6 hs6
            simp only at hl6 hi6 hs6 ⊢
            have hl60 : s6.ledger = ⟨[d], [], 0, 0⟩ := by rw [hl6, hl50]
            cases x6 with
            | error => exact ⟨_, _, _, rfl, by simp [Settled, closeSock, hl60, texts], by simp [closeSock, hl60], by simp, by simp⟩
            | idle => exact ⟨_, _, _, rfl, by simp [Settled, closeSock, hl60, texts], by simp [closeSock, hl60], by simp, by simp⟩
            | ready =>
              simp only
              obtain ⟨k2, hk2, _⟩ := send_sent s6 ackMsg
              have hl7 := send_ledger s6 ackMsg
              have hi7 := send_input s6 ackMsg
              rcases hsd7 : send s6 ackMsg with ⟨s7, g7⟩
              rw [hsd7] at hk2 hl7 hi7
              simp only at hk2 hl7 hi7 ⊢
              refine ⟨_, _, _, rfl, by simp [Settled, hl7, hl60, texts], by simp [hl7, hl60], by simp, ?_⟩
              intro d' hd'
              injection hd' with hd'
              subst hd'
              refine ⟨blob, s3.env.input, hin0, hgot, hws, rfl, ?_, m, k1, k2, rfl, ?_⟩
              · cases got5 with
                | none =>
                  right
                  refine ⟨[], by simp, ?_⟩
                  rw [hi7, hi6]
                  have : s5.env.input = s4.env.input := by
                    unfold recv at hrc5
                    split at hrc5
                    · injection hrc5 with h1 _; rw [← h1]
                    · injection hrc5 with h1 _; rw [← h1]
                    · simp at hrc5
                  rw [this, hi4]; simp
                | some size' =>
                  obtain ⟨hin5, hle5⟩ := hpre5 rfl
                  rw [← hsize] at hsz
                  simp only [Option.map_some, Option.some.injEq, Option.getD_some] at hsz
                  by_cases h4 : size'.length = 4
                  · left
                    rw [if_pos h4] at hsz
                    exact ⟨size', _, by rw [← hi4, hin5], h4, by simpa using hsz⟩
                  · right
                    exact ⟨size', by omega, by rw [hi7, hi6, ← hin5, hi4]⟩
              · rw [hk2, hs6, hs5, hst4]
                rfl
    · exact ⟨_, _, _, rfl, by simp [Settled, hl3, hl20, texts], by simp [hl3, hl20], by simp, by simp⟩

/-- The environment of the examples: `n` bytes of input, everything moves completely. -/
def sampleGet (size : Nat) (text : List UInt8) : Env :=
  ⟨List.replicate 372 7 ++ u32le size ++ text, [some 372, some 4, some 1000], [some 100, some 100], [.ready, .ready], [true],
    fun _ _ => none, fun b => if b = List.replicate 372 7 then some 9 else none⟩

/-- The theorem is about real runs: one returns the socket, one closes it. -/
example : (get (sampleGet 0 []) 1234 true).map (fun r => (r.2.1, r.1.ledger)) = some (some 9, ⟨[9], [], 0, 0⟩) := by decide +kernel
example : (get (sampleGet 3 [104, 105, 0]) 1234 true).map (fun r => (r.2.1, r.1.ledger)) = some (none, ⟨[9], [9], 1, 1⟩) := by decide +kernel

/-- **C151** (negation of "the text arrives"): a size other than 0 read after the blob always makes the call fail, with the socket closed and
nothing confirmed, however the rest goes: the text is never even read. -/
theorem C151_text_never_arrives_negated (e : Env) (pid : Nat) (hp : pid < 4294967296) (blob size rest : List UInt8) (d : Nat)
    (hi : e.input = blob ++ size ++ rest) (hb : blob.length = 372) (hs : size.length = 4) (hn : le32 size ≠ 0)
    (hw : e.wsa blob = some d) (k1 k2 : Nat) (hk1 : 372 ≤ k1) (hk2 : 4 ≤ k2) (rs : List (Option Nat))
    (hr : e.recvs = some k1 :: some k2 :: rs) (ss : List Sel) (hsel : e.sels = .ready :: ss) :
    ∃ s, get e pid true = some (s, none, .null) ∧ s.ledger.closed = [d] ∧ s.env.input = rest ∧
      ∃ m k, pidMsg pid = some m ∧ s.sent = m.take k := by
  unfold get
  rw [pidMsg_eq pid hp]
  simp only
  generalize hm : bytes! "PID: " ++ (digitsRev pid).reverse ++ bytes! "\n" ++ [0] = m
  obtain ⟨k, hk, _⟩ := send_sent (start e) m
  have hl1 := send_ledger (start e) m
  have henv : (send (start e) m).1.env.recvs = e.recvs ∧ (send (start e) m).1.env.sels = e.sels ∧ (send (start e) m).1.env.wsa = e.wsa ∧
      (send (start e) m).1.env.input = e.input := by
    unfold send; split <;> exact ⟨rfl, rfl, rfl, rfl⟩
  rcases hsd : send (start e) m with ⟨s1, g1⟩
  rw [hsd] at hk hl1 henv
  simp only at hk hl1 henv ⊢
  obtain ⟨h1, h2, h3, h4⟩ := henv
  unfold waitFor
  rw [h2, hsel]
  simp only
  have e1 : min k1 372 = 372 := by omega
  have e2 : min k2 4 = 4 := by omega
  have t1 : e.input.take 372 = blob := by rw [hi, List.append_assoc, List.take_append_of_le_length (by omega)]; simp [← hb]
  have t2 : e.input.drop 372 = size ++ rest := by rw [hi, List.append_assoc, List.drop_append_of_le_length (by omega)]; simp [← hb]
  simp only [recv, h1, hr, h4, e1, t1, t2, Option.map_some, hb, show blobSize = 372 from rfl, if_true, Option.getD_some]
  simp only [getBlob, h3, hw, recv, if_true, e2]
  have t3 : (size ++ rest).take 4 = size := by rw [List.take_append_of_le_length (by omega)]; simp [← hs]
  have t4 : (size ++ rest).drop 4 = rest := by rw [List.drop_append_of_le_length (by omega)]; simp [← hs]
  simp only [t3, t4, Option.map_some, hs, if_true, Option.getD_some]
  rw [if_pos hn]
  generalize hs5 : (St.mk _ _ _ : St) = s5
  obtain ⟨s6, hg6, ho6, hc6, ha6, hin6, hsent6⟩ := getText_null s5 (le32 size)
  rw [hg6]
  simp only [decide_true, Bool.and_self, if_true]
  refine ⟨_, rfl, ?_, ?_, m, k, rfl, ?_⟩
  · simp [closeSock, hc6, ← hs5, hl1, start]
  · simp [closeSock, hin6, ← hs5]
  · simp [closeSock, hsent6, ← hs5, hk, start]

example : (get (sampleGet 3 [104, 105, 0]) 1234 true).map (fun r => (r.2.1, r.1.ledger.closed, r.1.env.input)) =
    some (none, [9], [104, 105, 0]) := by decide +kernel

/-- **C151** (negation): a receiver that passes NULL because it does not want the text is undefined when a text comes. -/
theorem C151_unwanted_text_undefined_negated : get (sampleGet 3 [104, 105, 0]) 1234 false = none := by decide +kernel

/-! ## Sending -/

/-- What is sent of the text. -/
def textBytes : Option (List UInt8) → List UInt8
  | some t => (t ++ [0]).take ((t.length + 1) % 4294967296)
  | none => []

theorem putData_ok (s : St) (blob : List UInt8) (text : Option (List UInt8)) (hb : blob.length = 372) :
    ∃ k, (putData s blob text).1.sent = s.sent ++
        (blob ++ u32le (textSize text) ++
          textBytes text).take k ∧
      ((putData s blob text).2 = true → 376 ≤ k) := by
  obtain ⟨k1, hk1, hn1⟩ := send_sent s blob
  unfold putData
  rcases hs1 : send s blob with ⟨s1, g1⟩
  rw [hs1] at hk1 hn1
  simp only at hk1 hn1 ⊢
  generalize hsz : textSize text = size
  have hu : (u32le size).length = 4 := rfl
  split
  · rename_i hg
    have hk : 372 ≤ k1 := by
      have := hn1 _ hg
      rw [show blobSize = 372 from rfl] at this; omega
    have hf : blob.take k1 = blob := List.take_of_length_le (by omega)
    obtain ⟨k2, hk2, hn2⟩ := send_sent s1 (u32le size)
    rcases hs2 : send s1 (u32le size) with ⟨s2, g2⟩
    rw [hs2] at hk2 hn2
    simp only at hk2 hn2 ⊢
    split
    · rename_i hg2
      have hk' : 4 ≤ k2 := by have := hn2 _ hg2; omega
      have hf2 : (u32le size).take k2 = u32le size := List.take_of_length_le (by omega)
      cases text with
      | none =>
        simp only
        refine ⟨376, ?_, by simp⟩
        rw [hk2, hk1, hf, hf2, List.take_of_length_le (by simp [hb, hu, textBytes])]
        simp [textBytes]
      | some t =>
        have hsz' : (t.length + 1) % 4294967296 = size := hsz
        simp only
        obtain ⟨k3, hk3, hn3⟩ := send_sent s2 ((t ++ [0]).take size)
        refine ⟨376 + k3, ?_, fun _ => by omega⟩
        simp only [textBytes, hsz']
        rw [hk3, hk2, hk1, hf, hf2]
        have : (blob ++ u32le size).length = 376 := by simp [hb, hu]
        rw [← this, List.take_length_add_append]
        simp
    · refine ⟨372 + min k2 4, ?_, by simp⟩
      rw [hk2, hk1, hf, List.append_assoc, List.append_assoc, ← hb, List.take_length_add_append,
        List.take_append_of_le_length (by omega)]
      congr 2
      rcases Nat.le_total k2 4 with h | h
      · rw [Nat.min_eq_left h]
      · rw [Nat.min_eq_right h, List.take_of_length_le (by omega), List.take_of_length_le (by omega)]
  · refine ⟨min k1 372, ?_, by simp⟩
    rw [hk1, List.append_assoc, List.take_append_of_le_length (by omega)]
    congr 1
    rcases Nat.le_total k1 372 with h | h
    · rw [Nat.min_eq_left h]
    · rw [Nat.min_eq_right h, List.take_of_length_le (by omega), List.take_of_length_le (by omega)]

theorem putData_input (s : St) (blob : List UInt8) (text : Option (List UInt8)) : (putData s blob text).1.env.input = s.env.input := by
  unfold putData
  simp only
  split
  · split
    · cases text <;> simp [send_input]
    · simp [send_input]
  · simp [send_input]

theorem waitFor_env (s : St) : (waitFor s).1.env.dup = s.env.dup ∧ (waitFor s).1.env.recvs = s.env.recvs := by
  unfold waitFor; split <;> exact ⟨rfl, rfl⟩

/-- The bytes a sender writes when nothing is cut short: the blob, the length of the text with its terminator (0: no text), the text. -/
def wire (blob : List UInt8) (text : Option (List UInt8)) : List UInt8 :=
  blob ++ (match text with
    | none => [0, 0, 0, 0]
    | some t => u32le (t.length + 1) ++ t ++ [0])

theorem wire_eq (blob : List UInt8) (text : Option (List UInt8)) (ht : ∀ t, text = some t → t.length + 1 < 4294967296) :
    blob ++ u32le (textSize text) ++
      textBytes text = wire blob text := by
  cases text with
  | none => simp [wire, u32le, textSize, textBytes]
  | some t =>
    have := ht t rfl
    simp only [wire, textSize, textBytes, Nat.mod_eq_of_lt this]
    rw [List.take_of_length_le (by simp)]
    simp

/-- **C151** sending to a process that wrote `PID: n` (read whole by the first `recv`): whatever else arrives and whichever call fails, nothing undefined happens,
the socket is duplicated for process `n` and no other, what is sent is an initial part of blob, length, text, and success is reported only if the blob and the length
went out completely and at least one byte came back afterwards. -/
theorem C151_sent_to_the_asker (e : Env) (d : Nat) (text : Option (List UInt8)) (ds rest : List UInt8) (pid k : Nat) (rs : List (Option Nat))
    (hd : IsDecimal ds pid) (hp : pid < 4294967296) (ht : ∀ t, text = some t → t.length + 1 < 4294967296)
    (hblob : ∀ a b c, e.dup a b = some c → c.length = 372)
    (hi : e.input = bytes! "PID: " ++ ds ++ bytes! "\n" ++ [0] ++ rest) (hr : e.recvs = some k :: rs)
    (hk : min k pidMsgSize = (bytes! "PID: " ++ ds ++ bytes! "\n" ++ [0]).length) :
    ∃ s to ok, put e d text = some (s, to, ok) ∧ (∀ p, to = some p → p = pid ∧ (e.dup d pid).isSome) ∧
      (to = none → s.sent = [] ∧ ok = false) ∧
      (∀ blob, e.dup d pid = some blob → to = some pid ∧ ∃ n, s.sent = (wire blob text).take n ∧ (ok = true → 376 ≤ n)) ∧
      (ok = true → ∃ a, a ≠ [] ∧ rest = a ++ s.env.input) := by
  unfold put
  have hrecv : recv (start e) pidMsgSize = (⟨{ e with recvs := rs, input := rest }, [], ⟨[], [], 0, 0⟩⟩,
      some (bytes! "PID: " ++ ds ++ bytes! "\n" ++ [0])) := by
    unfold recv start
    simp only [hr, hk]
    rw [hi]
    simp only [List.take_left, List.drop_left]
  rw [hrecv]
  have hlen : ¬ pidMsgSize + 1 ≤ (bytes! "PID: " ++ ds ++ bytes! "\n" ++ [0]).length := by rw [← hk]; omega
  simp only
  rw [if_neg hlen, scanPid_msg ds pid hd hp [0]]
  simp only
  cases hdup : e.dup d pid with
  | none => exact ⟨_, _, _, rfl, by simp, by simp, by simp, by simp⟩
  | some blob =>
    simp only
    have hb := hblob _ _ _ hdup
    generalize hs1 : (St.mk _ _ _ : St) = s1
    have hsent1 : s1.sent = [] := by rw [← hs1]
    have hin1 : s1.env.input = rest := by rw [← hs1]
    have hs2 := waitFor_sent s1
    have hi2 := waitFor_input s1
    rcases hw : waitFor s1 with ⟨s2, x⟩
    rw [hw] at hs2 hi2
    simp only at hs2 hi2
    have trivial_ok : ∀ s : St, s.sent = [] → ∃ s' to ok, some (s, some pid, false) = some (s', to, ok) ∧ (∀ p, to = some p → p = pid ∧ (some blob).isSome) ∧
      (to = none → s'.sent = [] ∧ ok = false) ∧
      (∀ blob', some blob = some blob' → to = some pid ∧ ∃ n, s'.sent = (wire blob' text).take n ∧ (ok = true → 376 ≤ n)) ∧
      (ok = true → ∃ a, a ≠ [] ∧ rest = a ++ s'.env.input) := fun s h =>
        ⟨s, some pid, false, rfl, by simp, by simp, fun _ _ => ⟨rfl, 0, by simp [h], by simp⟩, by simp⟩
    cases x with
    | error => exact trivial_ok _ (by rw [hs2, hsent1])
    | idle => exact trivial_ok _ (by rw [hs2, hsent1])
    | ready =>
      simp only
      obtain ⟨n, hn, hok⟩ := putData_ok s2 blob text hb
      rw [wire_eq blob text ht, hs2, hsent1, List.nil_append] at hn
      have hi3 := putData_input s2 blob text
      rcases hpd : putData s2 blob text with ⟨s3, good⟩
      rw [hpd] at hn hok hi3
      simp only at hn hok hi3
      have finish : ∀ (s : St) (ok : Bool), s.sent = s3.sent → (ok = true → good = true) → (ok = true → ∃ a, a ≠ [] ∧ rest = a ++ s.env.input) →
        ∃ s' to ok', some (s, some pid, ok) = some (s', to, ok') ∧ (∀ p, to = some p → p = pid ∧ (some blob).isSome) ∧
        (to = none → s'.sent = [] ∧ ok' = false) ∧
        (∀ blob', some blob = some blob' → to = some pid ∧ ∃ n, s'.sent = (wire blob' text).take n ∧ (ok' = true → 376 ≤ n)) ∧
        (ok' = true → ∃ a, a ≠ [] ∧ rest = a ++ s'.env.input) := fun s ok h1 h2 h3 =>
          ⟨s, some pid, ok, rfl, by simp, by simp, fun b' hb' => by
            injection hb' with hb'
            subst hb'
            exact ⟨rfl, n, by rw [h1, hn], fun h => hok (h2 h)⟩, h3⟩
      cases good with
      | false => exact finish _ false rfl (by simp) (by simp)
      | true =>
        simp only
        have hs4 := waitFor_sent s3
        have hi4 := waitFor_input s3
        rcases hw4 : waitFor s3 with ⟨s4, x4⟩
        rw [hw4] at hs4 hi4
        simp only at hs4 hi4
        cases x4 with
        | error => exact finish _ false (by rw [hs4]) (by simp) (by simp)
        | idle => exact finish _ false (by rw [hs4]) (by simp) (by simp)
        | ready =>
          simp only
          have hs5 := recv_sent s4 ackMsg.length
          have hp5 := @recv_prefix s4 ackMsg.length
          rcases hr5 : recv s4 ackMsg.length with ⟨s5, got⟩
          rw [hr5] at hs5 hp5
          simp only at hs5 hp5
          cases got with
          | none => exact finish _ false (by rw [hs5, hs4]) (by simp) (by simp)
          | some a =>
            simp only
            obtain ⟨h51, h52⟩ := hp5 rfl
            split
            · rw [if_neg (by omega)]
              rename_i hpos
              refine finish _ true (by rw [hs5, hs4]) (by simp) fun _ => ⟨a, ?_, ?_⟩
              · intro h; subst h; simp at hpos
              · rw [← h51, hi4, hi3, hi2, hin1]
            · exact finish _ false (by rw [hs5, hs4]) (by simp) (by simp)

/-- The sender of the examples. -/
def samplePut (pid : List UInt8) (chunk : Nat) : Env :=
  ⟨pid ++ ackMsg, [some chunk, some 5], [some 1000, some 1000, some 1000], [.ready, .ready], [],
    fun d p => if p = 1234 || p = 12 then some (List.replicate 372 (UInt8.ofNat (d + p % 10))) else none, fun _ => none⟩

example : (put (samplePut (bytes! "PID: 1234\n" ++ [0]) 11) 3 (some [104, 105])).map (fun r => (r.2.1, r.2.2, r.1.sent)) =
    some (some 1234, true, wire (List.replicate 372 7) (some [104, 105])) := by decide +kernel

/-- **C151**: any answer at all, be it one wrong byte, is taken for the acknowledgement. -/
theorem C151_any_answer_is_an_ack_negated : (put { samplePut (bytes! "PID: 1234\n" ++ [0]) 11 with input := bytes! "PID: 1234\n" ++ [0] ++ [88], recvs := [some 11, some 1] } 3 (some [104, 105])).map (·.2) =
    some (some 1234, true) := by decide +kernel

/-- **C151** (negation of "for the asking process"): when the first `recv` gets only the beginning of the message, the socket is duplicated for another process. -/
theorem C151_split_pid_negated :
    ∃ e, e.input = bytes! "PID: 1234\n" ++ [0] ++ ackMsg ∧ (put e 3 none).map (fun r => r.2.1) = some (some 12) :=
  ⟨samplePut (bytes! "PID: 1234\n" ++ [0]) 7, rfl, by decide +kernel⟩

/-- **C151** (negation of "nothing the peer sends is undefined"): a number that does not fit. -/
theorem C151_huge_pid_negated : ∃ e, put e 3 none = none :=
  ⟨samplePut (bytes! "PID: 99999999999\n" ++ [0]) 18, by decide +kernel⟩

/-! ## Both together -/

/-- **C151** a socket passed without text, all calls going well and each side reading what the other has written so far: the receiver returns the socket opened from the
sender's blob for its own process, both report success, and nothing is left unread. -/
theorem C151_exchange_without_text (dup : Nat → Nat → Option (List UInt8)) (wsa : List UInt8 → Option Nat) (d pid d' : Nat) (blob m : List UInt8)
    (hp : pid < 4294967296) (hm : pidMsg pid = some m) (hdup : dup d pid = some blob) (hb : blob.length = 372) (hw : wsa blob = some d') :
    ∃ sp sg, put ⟨m ++ ackMsg, [some m.length, some 5], [some 372, some 4], [.ready, .ready], [], dup, wsa⟩ d none = some (sp, some pid, true) ∧
      get ⟨sp.sent, [some 372, some 4], [some m.length, some 5], [.ready, .ready], [], dup, wsa⟩ pid true = some (sg, some d', .null) ∧
      sg.sent = m ++ ackMsg ∧ sg.env.input = [] ∧ sp.env.input = [] := by
  have hm' := hm
  rw [pidMsg_eq pid hp] at hm'
  injection hm' with hm'
  have hml : min m.length pidMsgSize = m.length := by
    have := digitsRev_len pid 10 (by omega) (by omega)
    rw [← hm']
    simp [pidMsgSize]
    omega
  have hsc : scanPid (m ++ [0]) = some (some pid) := by
    rw [← hm']
    exact scanPid_msg _ pid (digits_decimal pid) hp [0]
  have hal : ackMsg.length = 5 := rfl
  refine ⟨⟨⟨[], [], [], [], [], dup, wsa⟩, blob ++ u32le 0, ⟨[], [], 0, 0⟩⟩,
    ⟨⟨[], [], [], [], [], dup, wsa⟩, m ++ ackMsg, ⟨[d'], [], 0, 0⟩⟩, ?_, ?_, rfl, rfl, rfl⟩
  · unfold put
    have h1 : ¬ pidMsgSize + 1 ≤ m.length := by omega
    have e1 : blob.take 372 = blob := List.take_of_length_le (by omega)
    simp only [recv, start, hml, List.take_left, List.drop_left, if_neg h1, hsc, hdup, waitFor, putData, textSize, send, e1, hb, blobSize,
      Nat.min_self, hal, List.nil_append, if_true]
    simp [u32le, ackMsg]
  · unfold get
    rw [hm]
    have e1 : (blob ++ u32le 0).take 372 = blob := by rw [← hb]; simp
    have e2 : (blob ++ u32le 0).drop 372 = u32le 0 := by rw [← hb]; simp
    have e3 : le32 (u32le 0) = 0 := by decide
    have e4 : (u32le 0).take 4 = u32le 0 := rfl
    have e5 : (u32le 0).drop 4 = [] := rfl
    have e6 : (u32le 0).length = 4 := rfl
    have e7 : ackMsg.take 5 = ackMsg := rfl
    simp only [send, start, waitFor, recv, blobSize, Nat.min_self, e1, e2, hb, Option.map_some, if_true, getBlob, Option.getD_some, hw, e3, e4, e5, e6,
      ne_eq, not_true_eq_false, if_false, List.take_length, e7, List.nil_append]

/-- The hypotheses are met: process 1234, a blob of sevens. -/
example : pidMsg 1234 = some (bytes! "PID: 1234\n" ++ [0]) := by decide +kernel

/-- **C151** (negation of "the text and the socket arrive"): the same exchange with any text: the receiver closes the socket and fails, the text stays unread, and the
sender, waiting in vain for the confirmation, fails too. -/
theorem C151_exchange_with_text_negated (dup : Nat → Nat → Option (List UInt8)) (wsa : List UInt8 → Option Nat) (d pid d' : Nat) (blob m t : List UInt8)
    (hp : pid < 4294967296) (hm : pidMsg pid = some m) (hdup : dup d pid = some blob) (hb : blob.length = 372) (hw : wsa blob = some d')
    (ht : t.length + 1 < 4294967296) :
    ∃ sp sg, put ⟨m, [some m.length], [some 372, some 4, some (t.length + 1)], [.ready, .idle], [], dup, wsa⟩ d (some t) = some (sp, some pid, false) ∧
      get ⟨sp.sent, [some 372, some 4, some (t.length + 1)], [some m.length, some 5], [.ready, .ready], [true], dup, wsa⟩ pid true = some (sg, none, .null) ∧
      sg.ledger.closed = [d'] ∧ sg.sent = m ∧ sg.env.input = t ++ [0] := by
  have hm' := hm
  rw [pidMsg_eq pid hp] at hm'
  injection hm' with hm'
  have hml : min m.length pidMsgSize = m.length := by
    have := digitsRev_len pid 10 (by omega) (by omega)
    rw [← hm']
    simp [pidMsgSize]
    omega
  have hsc : scanPid (m ++ [0]) = some (some pid) := by
    rw [← hm']
    exact scanPid_msg _ pid (digits_decimal pid) hp [0]
  have hu : (u32le (t.length + 1)).length = 4 := rfl
  have hput : put ⟨m, [some m.length], [some 372, some 4, some (t.length + 1)], [.ready, .idle], [], dup, wsa⟩ d (some t) =
      some (⟨⟨[], [], [], [], [], dup, wsa⟩, blob ++ u32le (t.length + 1) ++ (t ++ [0]), ⟨[], [], 0, 0⟩⟩, some pid, false) := by
    unfold put
    have h1 : ¬ pidMsgSize + 1 ≤ m.length := by omega
    have e1 : blob.take 372 = blob := List.take_of_length_le (by omega)
    have e2 : (u32le (t.length + 1)).take 4 = u32le (t.length + 1) := rfl
    have e3 : (t ++ [(0 : UInt8)]).take (t.length + 1) = t ++ [0] := List.take_of_length_le (by simp)
    have hmt : m.take m.length = m := List.take_length
    have hmd : m.drop m.length = [] := List.drop_length
    simp only [recv, start, hml, hmt, hmd, if_neg h1, hsc, hdup, waitFor, putData, textSize, send, e1, hb, blobSize, Nat.mod_eq_of_lt ht,
      Nat.min_self, hu, e2, e3, List.nil_append, if_true, Option.isSome_some]
  rw [hput]
  have hl : le32 (u32le (t.length + 1)) ≠ 0 := by rw [le32_u32le _ ht]; omega
  obtain ⟨s, hg, hc, hi, m', k, hm2, hs⟩ := C151_text_never_arrives_negated
    ⟨blob ++ u32le (t.length + 1) ++ (t ++ [0]), [some 372, some 4, some (t.length + 1)], [some m.length, some 5], [.ready, .ready], [true], dup, wsa⟩
    pid hp blob (u32le (t.length + 1)) (t ++ [0]) d' rfl hb hu hl hw 372 4 (by omega) (by omega) _ rfl _ rfl
  refine ⟨_, s, rfl, hg, hc, ?_, hi⟩
  have hsent : ∀ s', get ⟨blob ++ u32le (t.length + 1) ++ (t ++ [0]), [some 372, some 4, some (t.length + 1)], [some m.length, some 5],
      [.ready, .ready], [true], dup, wsa⟩ pid true = some s' → s'.1.sent = m := by
    intro s' h
    unfold get at h
    rw [hm] at h
    have e1 : (blob ++ u32le (t.length + 1) ++ (t ++ [0])).take 372 = blob := by rw [← hb]; simp
    have e2 : (blob ++ u32le (t.length + 1) ++ (t ++ [0])).drop 372 = u32le (t.length + 1) ++ (t ++ [0]) := by rw [← hb]; simp
    have e4 : (u32le (t.length + 1) ++ (t ++ [0])).take 4 = u32le (t.length + 1) := rfl
    simp only [send, start, waitFor, recv, blobSize, Nat.min_self, e1, e2, hb, Option.map_some, if_true, getBlob, Option.getD_some, hw, e4, hu,
      ne_eq, hl, not_false_eq_true, List.take_length, List.nil_append] at h
    simp only [getText, alloc, freeBuf, closeSock, if_true, Bool.true_eq_false, if_false, decide_true, Bool.and_self] at h
    injection h with h
    rw [← h]
  exact hsent _ hg

end WinPass
