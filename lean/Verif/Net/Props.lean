import Verif.Net.Lemmas
/-
C37: a command sent over the network arrives intact, and a damaged one is refused.
-/
namespace Fio.Net
open Crc (crc16 Burst bitsR)

/-! ## What a sequence of fragments looks like -/

/-- `out` are fragments of one command: opcode, tag and flags of the first fragment, the payload. `e`
tells whether the last fragment is empty. -/
inductive Frags (op : Nat) : (tag flags : Nat) → (e : Bool) → (payload out : List Byte) → Prop where
  | last {tag flags : Nat} {p : List Byte} (hfl : flags < 2 ^ 32) (htag : tag < 2 ^ 64)
      (h0 : flags % 2 = 0) (hp : p.length ≤ maxFrag) :
      Frags op tag flags p.isEmpty p (cmdOf op tag flags p ++ p)
  | more {tag flags tag' flags' : Nat} {e : Bool} {p q out : List Byte} (hfl : flags < 2 ^ 32)
      (htag : tag < 2 ^ 64) (h1 : flags % 2 = 1) (hp : p.length ≤ maxFrag) (hp0 : p ≠ [])
      (hq : Frags op tag' flags' e q out) :
      Frags op tag flags e (p ++ q) (cmdOf op tag flags p ++ p ++ out)

/-- What the receiver has after these fragments. -/
def result (acc : Option Msg) (op flags tag : Nat) (q : List Byte) : Msg :=
  let m := acc.getD ⟨op, flags, tag, 0, []⟩
  { m with pduLen := m.pduLen + q.length, pay := m.pay ++ q }

theorem result_step (acc : Option Msg) (op flags tag fl' tag' : Nat) (p q : List Byte) :
    result (some (result acc op flags tag p)) op fl' tag' q = result acc op flags tag (p ++ q) := by
  simp [result, Nat.add_assoc]

/-- The opcode of the fragments so far. -/
def OpOk (acc : Option Msg) (op : Nat) : Prop := ∀ m, acc = some m → m.opcode = op

theorem opOk_any {acc : Option Msg} {op : Nat} (h : OpOk acc op) :
    acc.any (fun m => decide (m.opcode ≠ op)) = false := by
  cases acc with
  | none => rfl
  | some m => simp [h m rfl]

theorem opOk_result {acc : Option Msg} {op : Nat} (h : OpOk acc op) (flags tag : Nat) (q : List Byte) :
    OpOk (some (result acc op flags tag q)) op := by
  rintro m hm
  simp only [Option.some.injEq] at hm
  subst hm
  cases acc with
  | none => rfl
  | some m => exact h m rfl

theorem soFar_result (acc : Option Msg) (op flags tag : Nat) (q : List Byte) :
    soFar (some (result acc op flags tag q)) = soFar acc + q.length := by
  cases acc <;> simp [soFar, result]

/-- One round of the receiver on an intact fragment, if it accepts. -/
theorem round_ok (wait : Bool) (fuel : Nat) (env : List Rd) (op tag flags : Nat) (p rest : List Byte)
    (acc : Option Msg) (hop : op < 2 ^ 16) (htag : tag < 2 ^ 64) (hfl : flags < 2 ^ 32)
    (hp : p.length ≤ maxFrag) (hacc : OpOk acc op) (m : Msg) (s : List Byte) (env' : List Rd)
    (h : recvLoop wait (fuel + 1) env (cmdOf op tag flags p ++ p ++ rest) acc = some (some m, s, env')) :
    if p ≠ [] ∧ flags % 2 = 1 then
      ∃ env1, recvLoop wait fuel env1 rest (some (result acc op flags tag p)) = some (some m, s, env')
    else m = result acc op flags tag p ∧ s = rest := by
  obtain ⟨f1, f2, f3, f4, f5, f6, f7, f8⟩ := fields op tag flags p hop htag hfl hp
  have hv := valid op tag flags p hop htag hfl hp
  simp only [recvLoop] at h
  split at h
  · simp at h
  · simp at h
  · rename_i hd s1 env1 hr
    obtain ⟨rfl, rfl, -⟩ := recvData_ok wait env _ 24 _ _ _ (by decide) hr
    rw [List.append_assoc, List.take_left' (by simp), List.drop_left' (by simp), hv, f2, f3, f4, f5, f8,
      opOk_any hacc] at h
    simp only [Bool.not_true, Bool.false_eq_true, if_false] at h
    split at h
    · simp at h
    · split at h
      · rename_i hp0
        have hp0 : p = [] := List.eq_nil_of_length_eq_zero hp0
        subst hp0
        simp only [Option.some.injEq, Prod.mk.injEq, List.nil_append] at h
        obtain ⟨rfl, rfl, -⟩ := h
        simp [result]
      · rename_i hp0
        have hp0' : p ≠ [] := by rintro rfl; exact hp0 rfl
        split at h
        · simp at h
        · simp at h
        · rename_i pdu s2 env2 hr2
          obtain ⟨rfl, rfl, -⟩ := recvData_ok wait env1 _ _ _ _ _ hp0 hr2
          rw [List.take_left' rfl, List.drop_left' rfl] at h
          simp only [ne_eq, not_true, if_false] at h
          split at h
          · rename_i hf
            rw [if_pos ⟨hp0', hf⟩]
            exact ⟨env2, h⟩
          · rename_i hf
            rw [if_neg (fun hc => hf hc.2)]
            simp only [Option.some.injEq, Prod.mk.injEq] at h
            obtain ⟨rfl, rfl, -⟩ := h
            exact ⟨rfl, rfl⟩

/-- Whatever recv does, a command that is delivered is the one sent, and what follows it stays. -/
theorem recvLoop_safe (wait : Bool) (op : Nat) (hop : op < 2 ^ 16) :
    ∀ {tag flags : Nat} {e : Bool} {q out : List Byte}, Frags op tag flags e q out →
    ∀ (fuel : Nat) (env : List Rd) (rest : List Byte) (acc : Option Msg), OpOk acc op →
    ∀ m s env', recvLoop wait fuel env (out ++ rest) acc = some (some m, s, env') →
    m = result acc op flags tag q ∧ s = rest := by
  intro tag flags e q out hF
  induction hF with
  | last hfl htag h0 hp =>
    intro fuel env rest acc hacc m s env' h
    cases fuel with
    | zero => simp [recvLoop] at h
    | succ fuel =>
      have := round_ok wait fuel env op _ _ _ rest acc hop htag hfl hp hacc m s env' h
      rwa [if_neg (by omega)] at this
  | more hfl htag h1 hp hp0 hq ih =>
    intro fuel env rest acc hacc m s env' h
    cases fuel with
    | zero => simp [recvLoop] at h
    | succ fuel =>
      rw [List.append_assoc] at h
      have := round_ok wait fuel env op _ _ _ _ acc hop htag hfl hp hacc m s env' h
      rw [if_pos ⟨hp0, h1⟩] at this
      obtain ⟨env1, h2⟩ := this
      have := ih fuel env1 rest _ (opOk_result hacc _ _ _) m s env' h2
      rwa [result_step] at this

/-- The size limit of the receiver. -/
def Small (n : Nat) : Prop := (24 + n + 1) / 1024 ≤ maxCmdMb * 1024

theorem frags_length {op tag flags : Nat} {e : Bool} {q out : List Byte} (h : Frags op tag flags e q out) :
    q.length < out.length := by
  induction h with
  | last => simp
  | more _ _ _ _ _ _ ih => simp only [List.length_append, cmdOf_length]; omega

/-- If recv delivers the bytes, the command is delivered. -/
theorem recvLoop_total (wait : Bool) (op : Nat) (hop : op < 2 ^ 16) :
    ∀ {tag flags : Nat} {e : Bool} {q out : List Byte}, Frags op tag flags e q out →
    ∀ (fuel : Nat) (env : List Rd) (rest : List Byte) (acc : Option Msg), OpOk acc op →
    out.length ≤ fuel → GoodR wait env → out.length ≤ reads env → Small (soFar acc + q.length) →
    ∃ env', recvLoop wait fuel env (out ++ rest) acc = some (some (result acc op flags tag q), rest, env') ∧
      GoodR wait env' ∧ reads env ≤ reads env' + out.length := by
  intro tag flags e q out hF
  induction hF with
  | @last tag flags p hfl htag h0 hp =>
    intro fuel env rest acc hacc hf hg hr hs
    simp only [List.length_append, cmdOf_length] at hf hr ⊢
    obtain ⟨fuel, rfl⟩ : ∃ k, fuel = k + 1 := ⟨fuel - 1, by omega⟩
    obtain ⟨f1, f2, f3, f4, f5, f6, f7, f8⟩ := fields op tag flags p hop htag hfl hp
    have hv := valid op tag flags p hop htag hfl hp
    obtain ⟨env1, r1, g1, c1⟩ := recvData_total wait env (cmdOf op tag flags p ++ p ++ rest) 24 (by decide)
      (by simp) hg (by omega)
    rw [List.append_assoc, List.take_left' (by simp), List.drop_left' (by simp)] at r1
    simp only [recvLoop, List.append_assoc, r1, hv, f2, f3, f4, f5, f8, opOk_any hacc]
    simp only [Bool.not_true, Bool.false_eq_true, if_false]
    have hsz : ¬ ((24 + (soFar acc + p.length) + 1) / 1024 > maxCmdMb * 1024) := by
      unfold Small at hs; omega
    rw [if_neg hsz]
    by_cases hp0 : p.length = 0
    · rw [if_pos hp0]
      have hp0 : p = [] := List.eq_nil_of_length_eq_zero hp0
      subst hp0
      exact ⟨env1, by simp [result], g1, by simp; omega⟩
    · rw [if_neg hp0]
      obtain ⟨env2, r2, g2, c2⟩ := recvData_total wait env1 (p ++ rest) p.length hp0 (by simp) g1 (by omega)
      rw [List.take_left' rfl, List.drop_left' rfl] at r2
      simp only [r2, ne_eq, not_true, if_false, h0]
      exact ⟨env2, rfl, g2, by omega⟩
  | @more tag flags tag' flags' e p q out hfl htag h1 hp hp0 hq ih =>
    intro fuel env rest acc hacc hf hg hr hs
    simp only [List.length_append, cmdOf_length] at hf hr hs ⊢
    obtain ⟨fuel, rfl⟩ : ∃ k, fuel = k + 1 := ⟨fuel - 1, by omega⟩
    obtain ⟨f1, f2, f3, f4, f5, f6, f7, f8⟩ := fields op tag flags p hop htag hfl hp
    have hv := valid op tag flags p hop htag hfl hp
    have hp0' : p.length ≠ 0 := by simpa using hp0
    obtain ⟨env1, r1, g1, c1⟩ := recvData_total wait env (cmdOf op tag flags p ++ (p ++ (out ++ rest))) 24
      (by decide) (by simp) hg (by omega)
    rw [List.take_left' (by simp), List.drop_left' (by simp)] at r1
    simp only [recvLoop, List.append_assoc, r1, hv, f2, f3, f4, f5, f8, opOk_any hacc]
    simp only [Bool.not_true, Bool.false_eq_true, if_false]
    have hsz : ¬ ((24 + (soFar acc + p.length) + 1) / 1024 > maxCmdMb * 1024) := by
      unfold Small at hs; omega
    rw [if_neg hsz, if_neg hp0']
    obtain ⟨env2, r2, g2, c2⟩ := recvData_total wait env1 (p ++ (out ++ rest)) p.length hp0' (by simp) g1
      (by omega)
    rw [List.take_left' rfl, List.drop_left' rfl] at r2
    simp only [r2, ne_eq, not_true, if_false, h1, if_true]
    obtain ⟨env3, r3, g3, c3⟩ := ih fuel env2 rest _ (opOk_result hacc flags tag p) (by omega) g2 (by omega)
      (by rw [soFar_result]; rwa [← Nat.add_assoc] at hs)
    rw [result_step] at r3
    exact ⟨env3, r3, g3, by omega⟩

/-! ## What the senders put on the wire -/

/-- fio_net_send_cmd splits the payload in pieces of 1024 bytes. -/
inductive Full (op tag flags : Nat) : (payload out : List Byte) → Prop where
  | last {p : List Byte} (hp : p.length ≤ maxFrag) : Full op tag flags p (cmdOf op tag flags p ++ p)
  | more {p q out : List Byte} (hp : p.length = maxFrag) (hq : Full op tag flags q out) (hq0 : q ≠ []) :
      Full op tag flags (p ++ q) (cmdOf op tag (flags ||| 1) p ++ p ++ out)

theorem full_frags {op tag flags : Nat} {q out : List Byte} (htag : tag < 2 ^ 64) (hfl : flags < 2 ^ 32)
    (h0 : flags % 2 = 0) (h : Full op tag flags q out) :
    ∃ fl, Frags op tag fl q.isEmpty q out ∧ fl - fl % 2 = flags := by
  induction h with
  | last hp => exact ⟨flags, .last hfl htag h0 hp, by omega⟩
  | @more p q out hp _ hq0 ih =>
    obtain ⟨fl, ih, -⟩ := ih
    have hor : flags ||| 1 = flags + 1 := by
      have := Nat.two_pow_add_eq_or_of_lt (i := 1) (b := 1) (by decide) (flags / 2)
      rw [show 2 ^ 1 * (flags / 2) = flags by omega] at this
      exact this.symm
    have hp0 : p ≠ [] := by rintro rfl; simp [maxFrag] at hp
    have he : (p ++ q).isEmpty = q.isEmpty := by
      cases p with
      | nil => exact absurd rfl hp0
      | cons a p => cases q with
        | nil => exact absurd rfl hq0
        | cons b q => rfl
    rw [he, hor]
    exact ⟨flags + 1, .more (by omega) htag (by omega) (by omega) hp0 ih, by omega⟩

/-- Send the whole command, starting with a given flag word. -/
theorem full_split (op tag flags : Nat) (payload out : List Byte)
    (h : if payload.drop maxFrag = [] then
        out = cmdOf op tag flags (payload.take maxFrag) ++ payload.take maxFrag
      else ∃ o, Full op tag flags (payload.drop maxFrag) o ∧
        out = cmdOf op tag (flags ||| 1) (payload.take maxFrag) ++ payload.take maxFrag ++ o) :
    Full op tag flags payload out := by
  split at h
  · rename_i hd
    have hl : payload.length ≤ maxFrag := by
      have := congrArg List.length hd
      simp at this; omega
    rw [List.take_of_length_le hl] at h
    subst h
    exact .last hl
  · rename_i hd
    obtain ⟨o, h1, rfl⟩ := h
    have hl : (payload.take maxFrag).length = maxFrag := by
      have : payload.length ≥ maxFrag := by
        by_contra hc
        exact hd (List.drop_eq_nil_of_le (by omega))
      simp; omega
    have := Full.more hl h1 hd
    rwa [List.take_append_drop] at this

theorem sendLoop_full (op tag : Nat) : ∀ (fuel : Nat) (env : List Wr) (payload out : List Byte) env',
    sendLoop op tag fuel env payload = some (out, true, env') → Full op tag 0 payload out := by
  intro fuel
  induction fuel with
  | zero => intro env payload out env' h; simp [sendLoop] at h
  | succ fuel ih =>
    intro env payload out env' h
    simp only [sendLoop] at h
    split at h
    · simp at h
    · rename_i o ok iov env1 hs
      apply full_split
      split at h
      · rename_i hc
        obtain ⟨rfl, hd⟩ := hc
        have hs := sendv_ok _ _ _ _ _ _ _ (by simp) (by simp) hs
        simp only [Option.map_eq_some_iff] at h
        obtain ⟨⟨o2, b2, e2⟩, h3, h4⟩ := h
        simp only [Prod.mk.injEq] at h4
        obtain ⟨rfl, rfl, rfl⟩ := h4
        rw [if_neg hd]
        refine ⟨o2, ih _ _ _ _ h3, ?_⟩
        rw [hs, moreFlag, if_neg hd]
        simp
      · rename_i hc
        simp only [Option.some.injEq, Prod.mk.injEq] at h
        obtain ⟨rfl, rfl, rfl⟩ := h
        have hd : payload.drop maxFrag = [] := by
          by_contra hd
          exact hc ⟨rfl, hd⟩
        have hs := sendv_ok _ _ _ _ _ _ _ (by simp) (by simp) hs
        rw [if_pos hd, hs, moreFlag, if_pos hd]
        simp

theorem sendLoop_total (op tag : Nat) : ∀ (fuel : Nat) (env : List Wr) (payload : List Byte),
    payload.length < fuel → GoodW env → payload.length + 24 * (payload.length / 1024 + 1) ≤ writes env →
    ∃ out env', sendLoop op tag fuel env payload = some (out, true, env') := by
  intro fuel
  induction fuel with
  | zero => intro env payload h; omega
  | succ fuel ih =>
    intro env payload hf hg hw
    simp only [sendLoop]
    have hl : (payload.take maxFrag).length = min 1024 payload.length := by simp [maxFrag]
    have hl2 : (payload.drop maxFrag).length = payload.length - 1024 := by simp [maxFrag]
    obtain ⟨o, iov, env1, h1, g1, c1⟩ := sendv_total env []
      [cmdOf op tag (moreFlag (payload.drop maxFrag)) (payload.take maxFrag) ++ payload.take maxFrag]
      (cmdOf op tag (moreFlag (payload.drop maxFrag)) (payload.take maxFrag) ++ payload.take maxFrag).length
      (by simp) (by simp) hg (by simp only [List.length_append, cmdOf_length, hl]; omega)
    rw [h1]
    simp only [true_and]
    split
    · rename_i hd
      have hlt : payload.length > 1024 := by
        by_contra hc
        exact hd (List.drop_eq_nil_of_le (by unfold maxFrag; omega))
      simp only [List.length_append, cmdOf_length, hl] at c1
      obtain ⟨o2, e2, h2⟩ := ih env1 (payload.drop maxFrag) (by omega) g1 (by omega)
      exact ⟨o ++ o2, e2, by rw [h2]; rfl⟩
    · exact ⟨o, env1, rfl⟩

/-- fio_sendv_data only appends to the entries it has passed. -/
theorem iovAdvance_done : ∀ (cur done : List (List Byte)) (n : Nat) d c,
    iovAdvance done cur n = some (d, c) → ∃ x, d = done ++ x := by
  intro cur
  induction cur with
  | nil =>
    intro done n d c h
    cases n with
    | zero => simp only [iovAdvance, Option.some.injEq, Prod.mk.injEq] at h; exact ⟨[], by simp [h.1]⟩
    | succ n => simp [iovAdvance] at h
  | cons v cur ih =>
    intro done n d c h
    cases n with
    | zero => simp only [iovAdvance, Option.some.injEq, Prod.mk.injEq] at h; exact ⟨[], by simp [h.1]⟩
    | succ n =>
      simp only [iovAdvance] at h
      split at h
      · obtain ⟨x, rfl⟩ := ih _ _ _ _ h
        exact ⟨v :: x, by simp⟩
      · simp only [Option.some.injEq, Prod.mk.injEq] at h; exact ⟨[], by simp [h.1]⟩

theorem sendv_done : ∀ (env : List Wr) (v : List Byte) (done cur : List (List Byte)) (total : Nat) out ok iov env',
    sendv env (v :: done) cur total = some (out, ok, iov, env') → iov.headD [] = v := by
  intro env
  induction env with
  | nil => intro v done cur total out ok iov env' h; simp [sendv] at h
  | cons w env ih =>
    intro v done cur total out ok iov env' h
    cases w with
    | again => exact ih v done cur total out ok iov env' h
    | stop =>
      simp only [sendv, Option.some.injEq, Prod.mk.injEq] at h
      obtain ⟨-, -, rfl, -⟩ := h
      rfl
    | wrote n =>
      simp only [sendv] at h
      split at h
      · simp only [Option.some.injEq, Prod.mk.injEq] at h
        obtain ⟨-, -, rfl, -⟩ := h
        rfl
      · split at h
        · simp only [Option.some.injEq, Prod.mk.injEq] at h
          obtain ⟨-, -, rfl, -⟩ := h
          rfl
        · split at h
          · simp at h
          · rename_i d c hd
            obtain ⟨x, rfl⟩ := iovAdvance_done _ _ _ _ _ hd
            simp only [Option.map_eq_some_iff] at h
            obtain ⟨⟨o2, b2, i2, e2⟩, h3, h4⟩ := h
            simp only [Prod.mk.injEq] at h4
            obtain ⟨-, -, rfl, -⟩ := h4
            exact ih v (done ++ x) c _ _ _ _ _ h3

/-- No write ends inside the 24 bytes of a command. -/
def Whole (env : List Wr) : Prop := ∀ n, Wr.wrote n ∈ env → 24 ≤ n

/-- The system calls to come are a part of those given. -/
theorem sendv_env : ∀ (env : List Wr) (done cur : List (List Byte)) (total : Nat) out ok iov env',
    sendv env done cur total = some (out, ok, iov, env') → ∀ w ∈ env', w ∈ env := by
  intro env
  induction env with
  | nil => intro done cur total out ok iov env' h; simp [sendv] at h
  | cons w env ih =>
    intro done cur total out ok iov env' h x hx
    cases w with
    | again => exact List.mem_cons_of_mem _ (ih done cur total out ok iov env' h x hx)
    | stop =>
      simp only [sendv, Option.some.injEq, Prod.mk.injEq] at h
      obtain ⟨-, -, -, rfl⟩ := h
      exact List.mem_cons_of_mem _ hx
    | wrote n =>
      simp only [sendv] at h
      split at h
      · simp only [Option.some.injEq, Prod.mk.injEq] at h
        obtain ⟨-, -, -, rfl⟩ := h
        exact List.mem_cons_of_mem _ hx
      · split at h
        · simp only [Option.some.injEq, Prod.mk.injEq] at h
          obtain ⟨-, -, -, rfl⟩ := h
          exact List.mem_cons_of_mem _ hx
        · split at h
          · simp at h
          · rename_i d c hd
            simp only [Option.map_eq_some_iff] at h
            obtain ⟨⟨o2, b2, i2, e2⟩, h3, h4⟩ := h
            simp only [Prod.mk.injEq] at h4
            obtain ⟨-, -, -, rfl⟩ := h4
            exact List.mem_cons_of_mem _ (ih d c _ _ _ _ _ h3 x hx)

/-- If no write ends inside the command, `iov[0]` is as before. -/
theorem sendv_whole : ∀ (env : List Wr) (c p : List Byte) (total : Nat) out ok iov env', c.length = 24 →
    Whole env → sendv env [] [c, p] total = some (out, ok, iov, env') → iov.headD [] = c := by
  intro env
  induction env with
  | nil => intro c p total out ok iov env' _ _ h; simp [sendv] at h
  | cons w env ih =>
    intro c p total out ok iov env' hc hw h
    cases w with
    | again =>
      exact ih c p total out ok iov env' hc (fun n hn => hw n (List.mem_cons_of_mem _ hn)) h
    | stop =>
      simp only [sendv, Option.some.injEq, Prod.mk.injEq] at h
      obtain ⟨-, -, rfl, -⟩ := h
      rfl
    | wrote n =>
      have hn := hw n List.mem_cons_self
      simp only [sendv] at h
      generalize hk : Nat.min n [c, p].flatten.length = k at h
      have hk' : min n [c, p].flatten.length = k := hk
      have hk24 : 24 ≤ k := by
        rw [← hk']; simp [hc]; omega
      split at h
      · omega
      · split at h
        · simp only [Option.some.injEq, Prod.mk.injEq] at h
          obtain ⟨-, -, rfl, -⟩ := h
          rfl
        · obtain ⟨k, rfl⟩ : ∃ i, k = i + 1 := ⟨k - 1, by omega⟩
          simp only [iovAdvance, if_pos (show c.length ≤ k + 1 by omega)] at h
          split at h
          · simp at h
          · rename_i d x hd
            simp only [List.nil_append] at hd
            obtain ⟨y, rfl⟩ := iovAdvance_done _ _ _ _ _ hd
            simp only [Option.map_eq_some_iff] at h
            obtain ⟨⟨o2, b2, i2, e2⟩, h3, h4⟩ := h
            simp only [Prod.mk.injEq] at h4
            obtain ⟨-, -, rfl, -⟩ := h4
            exact sendv_done _ c y _ _ _ _ _ _ h3

/-- fio_send_cmd_ext_pdu sends the fragments, if the header is never cut, or there is one fragment. -/
theorem extLoop_full (op tag flags : Nat) : ∀ (fuel : Nat) (env : List Wr) (payload out : List Byte) env',
    (payload.length ≤ maxFrag ∨ Whole env) →
    extLoop op tag flags fuel 0 env payload = some (out, true, env') → Full op tag flags payload out := by
  intro fuel
  induction fuel with
  | zero => intro env payload out env' _ h; simp [extLoop] at h
  | succ fuel ih =>
    intro env payload out env' hw h
    simp only [extLoop, List.drop_zero] at h
    split at h
    · simp at h
    · rename_i o ok iov env1 hs
      apply full_split
      split at h
      · rename_i hc
        obtain ⟨rfl, hd⟩ := hc
        have hw : Whole env := by
          refine hw.resolve_left (fun hl => hd (List.drop_eq_nil_of_le hl))
        have hi := sendv_whole _ _ _ _ _ _ _ _ (by simp) hw hs
        have he := sendv_env _ _ _ _ _ _ _ _ hs
        have hs := sendv_ok _ _ _ _ _ _ _ (by simp) (by simp) hs
        simp only [Option.map_eq_some_iff] at h
        obtain ⟨⟨o2, b2, e2⟩, h3, h4⟩ := h
        simp only [Prod.mk.injEq] at h4
        obtain ⟨rfl, rfl, rfl⟩ := h4
        rw [if_neg hd]
        rw [hi, cmdOf_length] at h3
        refine ⟨o2, ih _ _ _ _ (Or.inr fun n hn => hw n (he _ hn)) h3, ?_⟩
        rw [hs, moreFlag, if_neg hd]
        simp
      · rename_i hc
        simp only [Option.some.injEq, Prod.mk.injEq] at h
        obtain ⟨rfl, rfl, rfl⟩ := h
        have hd : payload.drop maxFrag = [] := by
          by_contra hd
          exact hc ⟨rfl, hd⟩
        have hs := sendv_ok _ _ _ _ _ _ _ (by simp) (by simp) hs
        rw [if_pos hd, hs, moreFlag, if_pos hd]
        simp

theorem extLoop_env (op tag flags : Nat) : ∀ (fuel o : Nat) (env : List Wr) (payload out : List Byte) ok env',
    extLoop op tag flags fuel o env payload = some (out, ok, env') → ∀ w ∈ env', w ∈ env := by
  intro fuel
  induction fuel with
  | zero => intro o env payload out ok env' h; simp [extLoop] at h
  | succ fuel ih =>
    intro o env payload out ok env' h w hw
    simp only [extLoop] at h
    split at h
    · simp at h
    · rename_i o1 ok1 iov env1 hs
      have he := sendv_env _ _ _ _ _ _ _ _ hs
      split at h
      · simp only [Option.map_eq_some_iff] at h
        obtain ⟨⟨o2, b2, e2⟩, h3, h4⟩ := h
        simp only [Prod.mk.injEq] at h4
        obtain ⟨rfl, rfl, rfl⟩ := h4
        exact he _ (ih _ _ _ _ _ _ h3 w hw)
      · simp only [Option.some.injEq, Prod.mk.injEq] at h
        obtain ⟨rfl, rfl, rfl⟩ := h
        exact he _ hw

/-- Fragments with the MORE flag set throughout can be continued. -/
theorem full_more {op tag : Nat} {q out : List Byte} (htag : tag < 2 ^ 64) (h : Full op tag 1 q out)
    (hq : q ≠ []) {tag' flags' : Nat} {e : Bool} {q' out' : List Byte} (h' : Frags op tag' flags' e q' out') :
    Frags op tag 1 e (q ++ q') (out ++ out') := by
  induction h with
  | last hp => exact .more (by decide) htag rfl hp hq h'
  | @more p q out hp _ hq0 ih =>
    have hp0 : p ≠ [] := by rintro rfl; simp [maxFrag] at hp
    have := Frags.more (flags := 1) (by decide) htag rfl (by omega) hp0 (ih hq0)
    simpa using this

/-- The entries of send_vec_entry belong to one command: the same opcode, and none is empty but
perhaps the last. -/
def Chain (op : Nat) : List (Nat × Nat × List Byte) → Prop
  | [] => False
  | [(o, tag, _)] => o = op ∧ tag < 2 ^ 64
  | (o, tag, buf) :: es => o = op ∧ tag < 2 ^ 64 ∧ buf ≠ [] ∧ Chain op es

theorem sendVec_frags (op : Nat) : ∀ (es : List (Nat × Nat × List Byte)) (env : List Wr) out env',
    Chain op es → Whole env → sendVec env es = some (out, true, env') →
    ∃ fl e, fl < 2 ∧ Frags op (es.headD (0, 0, [])).2.1 fl e (es.map (·.2.2)).flatten out := by
  intro es
  induction es with
  | nil => intro env out env' hc; exact hc.elim
  | cons x es ih =>
    obtain ⟨o, tag, buf⟩ := x
    intro env out env' hc hw h
    simp only [sendVec] at h
    split at h
    · simp at h
    · rename_i o1 ok env1 hs
      simp only [Option.map_eq_some_iff] at h
      obtain ⟨⟨o2, b2, e2⟩, h3, h4⟩ := h
      simp only [Prod.mk.injEq, Bool.and_eq_true] at h4
      obtain ⟨rfl, ⟨rfl, rfl⟩, rfl⟩ := h4
      unfold sendExt at hs
      have he := extLoop_env _ _ _ _ _ _ _ _ _ _ hs
      have hf := extLoop_full _ _ _ _ _ _ _ _ (Or.inr hw) hs
      cases es with
      | nil =>
        obtain ⟨rfl, ht⟩ := hc
        simp only [sendVec, Option.some.injEq, Prod.mk.injEq] at h3
        obtain ⟨rfl, -, rfl⟩ := h3
        obtain ⟨fl, h5, h6⟩ := full_frags ht (by decide) (by decide) hf
        exact ⟨fl, _, by simp at h6; omega, by simpa using h5⟩
      | cons y es =>
        obtain ⟨rfl, ht, hb, hc⟩ := hc
        obtain ⟨fl, e, hfl, h5⟩ := ih env1 o2 e2 hc (fun n hn => hw n (he _ hn)) h3
        refine ⟨1, e, by decide, ?_⟩
        simpa using full_more ht hf hb h5

/-! ## Damaged fragments -/

/-- A stream with a fragment that does not pass the checks, after intact ones. -/
inductive Bad (op : Nat) : List Byte → Prop where
  | cmd {h : List Byte} (hl : h.length = 24) (hv : validCmd h = false) (rest : List Byte) : Bad op (h ++ rest)
  | pdu {h p : List Byte} (hl : h.length = 24) (hp : p ≠ []) (hf : field h 16 4 = p.length)
      (hc : (crc16 p).toNat ≠ field h 22 2) (rest : List Byte) : Bad op (h ++ p ++ rest)
  | later {tag flags : Nat} {p out : List Byte} (hfl : flags < 2 ^ 32) (htag : tag < 2 ^ 64)
      (h1 : flags % 2 = 1) (hp : p.length ≤ maxFrag) (hp0 : p ≠ []) (h : Bad op out) :
      Bad op (cmdOf op tag flags p ++ p ++ out)

/-- A stream like this delivers no command. -/
theorem bad_reject (wait : Bool) (op : Nat) (hop : op < 2 ^ 16) {s : List Byte} (hb : Bad op s) :
    ∀ (fuel : Nat) (env : List Rd) (acc : Option Msg), OpOk acc op →
    ∀ m s' env', recvLoop wait fuel env s acc ≠ some (some m, s', env') := by
  induction hb with
  | cmd hl hv rest =>
    intro fuel env acc _ m s' env' h
    cases fuel with
    | zero => simp [recvLoop] at h
    | succ fuel =>
      simp only [recvLoop] at h
      split at h
      · simp at h
      · simp at h
      · rename_i hd s1 env1 hr
        obtain ⟨rfl, rfl, -⟩ := recvData_ok wait env _ 24 _ _ _ (by decide) hr
        rw [List.take_left' hl, hv] at h
        simp at h
  | @pdu h0 p hl hp hf hc rest =>
    intro fuel env acc _ m s' env' h
    cases fuel with
    | zero => simp [recvLoop] at h
    | succ fuel =>
      have hp' : p.length ≠ 0 := by simpa using hp
      simp only [recvLoop] at h
      split at h
      · simp at h
      · simp at h
      · rename_i hd s1 env1 hr
        obtain ⟨rfl, rfl, -⟩ := recvData_ok wait env _ 24 _ _ _ (by decide) hr
        rw [List.append_assoc, List.take_left' hl, List.drop_left' hl, hf] at h
        split at h
        · simp at h
        · split at h
          · simp at h
          · split at h
            · simp at h
            · try rw [if_neg hp'] at h
              split at h
              · simp at h
              · simp at h
              · rename_i pdu s2 env2 hr2
                obtain ⟨rfl, rfl, -⟩ := recvData_ok wait env1 _ _ _ _ _ hp' hr2
                rw [List.take_left' rfl, if_pos hc] at h
                simp at h
  | later hfl htag h1 hp hp0 _ ih =>
    intro fuel env acc hacc m s' env' h
    cases fuel with
    | zero => simp [recvLoop] at h
    | succ fuel =>
      have := round_ok wait fuel env op _ _ _ _ acc hop htag hfl hp hacc m s' env' h
      rw [if_pos ⟨hp0, h1⟩] at this
      obtain ⟨env1, h2⟩ := this
      exact ih fuel env1 _ (opOk_result hacc _ _ _) m s' env' h2

theorem field_left (x y : List Byte) (off n : Nat) (h : off + n ≤ x.length) :
    field (x ++ y) off n = field x off n := by
  unfold field
  rw [List.drop_append_of_le_length (by omega), List.take_append_of_le_length (by simp; omega)]

/-- A command whose checksummed part was changed in a way the checksum sees. -/
theorem bad_head (op tag flags : Nat) (p h' rest : List Byte) (hl : h'.length = 20)
    (hc : crc16 h' ≠ crc16 (head op tag flags p.length)) :
    Bad op (h' ++ le 2 (crc16 (head op tag flags p.length)).toNat ++ le 2 (crc16 p).toNat ++ rest) := by
  apply Bad.cmd (by simp [hl])
  unfold validCmd
  rw [if_pos]
  rw [List.append_assoc, List.take_left' hl, ← List.append_assoc,
    field_eq _ _ _ 20 2 hl (by simp), fromLe_le, Nat.mod_eq_of_lt (BitVec.isLt _)]
  exact fun e => hc (BitVec.eq_of_toNat_eq e)

/-- The checksum of the command itself was changed. -/
theorem bad_cmd_crc (op tag flags : Nat) (p c' rest : List Byte) (hl : c'.length = 2)
    (hc : c' ≠ le 2 (crc16 (head op tag flags p.length)).toNat) :
    Bad op (head op tag flags p.length ++ c' ++ le 2 (crc16 p).toNat ++ rest) := by
  apply Bad.cmd (by simp [hl])
  unfold validCmd
  rw [if_pos]
  rw [List.append_assoc, List.take_left' (by simp), ← List.append_assoc, field_eq _ _ _ 20 2 (by simp) hl]
  intro e
  apply hc
  rw [← le_fromLe c', hl, e]

/-- The checksum of the payload was changed. -/
theorem bad_pdu_crc (op tag flags : Nat) (p c' rest : List Byte) (hl : c'.length = 2) (hp0 : p ≠ [])
    (hp : p.length ≤ maxFrag) (hc : c' ≠ le 2 (crc16 p).toNat) :
    Bad op (head op tag flags p.length ++ le 2 (crc16 (head op tag flags p.length)).toNat ++ c' ++ p ++ rest) := by
  apply Bad.pdu (by simp [hl]) hp0
  · rw [List.append_assoc, field_left _ _ _ _ (by simp)]
    have : head op tag flags p.length = (le 2 version ++ le 2 op ++ le 4 flags ++ le 8 tag) ++
        le 4 p.length ++ [] := by simp [head]
    rw [this, field_eq _ _ _ 16 4 (by simp) (by simp), fromLe_le, Nat.mod_eq_of_lt]
    unfold maxFrag at hp; omega
  · rw [← List.append_nil c', ← List.append_assoc, field_eq _ _ _ 22 2 (by simp) hl]
    intro e
    apply hc
    rw [← le_fromLe c', hl, e]

/-- The payload was changed in a way the checksum sees. -/
theorem bad_pay (op tag flags : Nat) (p p' rest : List Byte) (hop : op < 2 ^ 16) (htag : tag < 2 ^ 64)
    (hfl : flags < 2 ^ 32) (hp : p.length ≤ maxFrag) (hl : p'.length = p.length) (hc : crc16 p' ≠ crc16 p) :
    Bad op (cmdOf op tag flags p ++ p' ++ rest) := by
  obtain ⟨f1, f2, f3, f4, f5, f6, f7, f8⟩ := fields op tag flags p hop htag hfl hp
  apply Bad.pdu (by simp)
  · rintro rfl
    have : p = [] := List.eq_nil_of_length_eq_zero (by simpa using hl.symm)
    subst this
    exact hc rfl
  · rw [f5, hl]
  · rw [f8]
    exact fun e => hc (BitVec.eq_of_toNat_eq e)

theorem split_left {a z x y : List Byte} {d : Byte} (h : a ++ d :: z = x ++ y) (hl : a.length < x.length) :
    ∃ x', x = a ++ d :: x' ∧ z = x' ++ y := by
  rcases List.append_eq_append_iff.1 h with ⟨c, h1, h2⟩ | ⟨c, h1, h2⟩
  · cases c with
    | nil => simp at h1; rw [h1] at hl; omega
    | cons e c =>
      simp only [List.cons_append, List.cons.injEq] at h2
      obtain ⟨rfl, rfl⟩ := h2
      exact ⟨c, h1, rfl⟩
  · rw [h1] at hl; simp at hl

theorem split_right {a z x y : List Byte} {d : Byte} (h : a ++ d :: z = x ++ y) (hl : x.length ≤ a.length) :
    ∃ a', a = x ++ a' ∧ y = a' ++ d :: z := by
  rcases List.append_eq_append_iff.1 h with ⟨c, h1, h2⟩ | ⟨c, h1, h2⟩
  · have : c = [] := by
      rw [h1] at hl; simp at hl; exact hl
    subst this
    exact ⟨[], by simpa using h1.symm, by simpa using h2.symm⟩
  · exact ⟨c, h1, h2⟩

theorem twoPow_ne (d : Byte) (j : Nat) (hj : j < 8) : d ^^^ BitVec.twoPow 8 j ≠ d := by
  intro h
  have := congrArg (fun x => x.getLsbD j) h
  simp [hj] at this

/-- A flipped bit in one fragment, followed by anything. -/
theorem flip_frag (op tag flags : Nat) (p : List Byte) (hop : op < 2 ^ 16) (htag : tag < 2 ^ 64)
    (hfl : flags < 2 ^ 32) (hp : p.length ≤ maxFrag) (a z rest : List Byte) (d : Byte) (j : Nat) (hj : j < 8)
    (h0 : cmdOf op tag flags p ++ p = a ++ d :: z) (hn : p ≠ [] ∨ a.length < 22) :
    Bad op (a ++ (d ^^^ BitVec.twoPow 8 j) :: z ++ rest) := by
  have h : a ++ d :: z = head op tag flags p.length ++
      (le 2 (crc16 (head op tag flags p.length)).toNat ++ (le 2 (crc16 p).toNat ++ p)) := by
    rw [← h0]; simp [cmdOf]
  clear h0
  by_cases c1 : a.length < 20
  · obtain ⟨x, h1, rfl⟩ := split_left h (by simpa using c1)
    have hx : (a ++ (d ^^^ BitVec.twoPow 8 j) :: x).length = 20 := by
      have := congrArg List.length h1
      simp only [head_length, List.length_append, List.length_cons] at this ⊢
      omega
    have := bad_head op tag flags p (a ++ (d ^^^ BitVec.twoPow 8 j) :: x) (p ++ rest) hx
      (by rw [h1]; exact ((Crc.C20_single_bit a x d j hj).2.2.1).symm)
    simpa using this
  · obtain ⟨a1, rfl, hh⟩ := split_right h (by simp; omega)
    simp only [List.length_append, head_length] at c1 hn
    replace h := hh.symm
    clear hh
    by_cases c2 : a1.length < 2
    · obtain ⟨x, h1, rfl⟩ := split_left h (by simpa using c2)
      have hx : (a1 ++ (d ^^^ BitVec.twoPow 8 j) :: x).length = 2 := by
        have := congrArg List.length h1
        simp only [le_length, List.length_append, List.length_cons] at this ⊢
        omega
      have := bad_cmd_crc op tag flags p (a1 ++ (d ^^^ BitVec.twoPow 8 j) :: x) (p ++ rest) hx (by
        rw [h1]
        intro e
        simp only [List.append_cancel_left_eq, List.cons.injEq, and_true] at e
        exact twoPow_ne d j hj e)
      simpa using this
    · obtain ⟨a2, rfl, hh⟩ := split_right h (by simp; omega)
      simp only [List.length_append, le_length] at c2 hn
      replace h := hh.symm
      clear hh
      have hp0 : p ≠ [] := hn.resolve_right (by omega)
      by_cases c3 : a2.length < 2
      · obtain ⟨x, h1, rfl⟩ := split_left h (by simpa using c3)
        have hx : (a2 ++ (d ^^^ BitVec.twoPow 8 j) :: x).length = 2 := by
          have := congrArg List.length h1
          simp only [le_length, List.length_append, List.length_cons] at this ⊢
          omega
        have := bad_pdu_crc op tag flags p (a2 ++ (d ^^^ BitVec.twoPow 8 j) :: x) rest hx hp0 hp (by
          rw [h1]
          intro e
          simp only [List.append_cancel_left_eq, List.cons.injEq, and_true] at e
          exact twoPow_ne d j hj e)
        simpa using this
      · obtain ⟨a3, rfl, hh⟩ := split_right h (by simp; omega)
        clear h
        subst hh
        have := bad_pay op tag flags (a3 ++ d :: z) (a3 ++ (d ^^^ BitVec.twoPow 8 j) :: z) rest hop htag hfl hp
          (by simp) ((Crc.C20_single_bit a3 z d j hj).2.2.1).symm
        simpa [cmdOf] using this

/-- A flipped bit anywhere in the fragments of a command. -/
theorem flip_bad (op : Nat) (hop : op < 2 ^ 16) {tag flags : Nat} {e : Bool} {q out : List Byte}
    (hF : Frags op tag flags e q out) :
    ∀ (a z rest : List Byte) (d : Byte) (j : Nat), j < 8 → out = a ++ d :: z →
    (e = false ∨ a.length + 2 < out.length) → Bad op (a ++ (d ^^^ BitVec.twoPow 8 j) :: z ++ rest) := by
  induction hF with
  | @last tag flags p hfl htag h0 hp =>
    intro a z rest d j hj h hn
    apply flip_frag op tag flags p hop htag hfl hp a z rest d j hj h
    rcases hn with hn | hn
    · left; rintro rfl; simp at hn
    · cases p with
      | nil => right; simp at hn; omega
      | cons x p => left; simp
  | @more tag flags tag' flags' e p q out hfl htag h1 hp hp0 hq ih =>
    intro a z rest d j hj h hn
    by_cases c : a.length < (cmdOf op tag flags p ++ p).length
    · obtain ⟨x, h2, rfl⟩ := split_left h.symm c
      have := flip_frag op tag flags p hop htag hfl hp a x (out ++ rest) d j hj h2 (Or.inl hp0)
      simpa using this
    · obtain ⟨a', rfl, h2⟩ := split_right h.symm (by omega)
      have := ih a' z rest d j hj h2 (by
        rcases hn with hn | hn
        · exact Or.inl hn
        · right; simp only [List.length_append] at hn ⊢; omega)
      have := Bad.later hfl htag h1 hp hp0 this
      simpa using this

theorem len_of_burst {n : Nat} {x y : List Byte} (h : Burst n (bitsR x) (bitsR y)) : y.length = x.length := by
  obtain ⟨a, u, v, z, h1, h2, h3, -⟩ := h
  have e1 := congrArg List.length h1
  have e2 := congrArg List.length h2
  rw [Crc.bitsR_len] at e1 e2
  simp only [List.length_append] at e1 e2
  omega

theorem app_inj {a b x y : List Byte} (h : a ++ x = b ++ y) (hl : a.length = b.length) : a = b ∧ x = y :=
  List.append_inj h hl

/-- A burst of up to 16 bits in the checksummed part of the command of fragment `k`. -/
theorem burst_head (op tag flags : Nat) (htag : tag < 2 ^ 64) (hfl : flags < 2 ^ 31)
    {q out : List Byte} (hF : Full op tag flags q out) :
    ∀ (k : Nat) (a x y z rest : List Byte), out = a ++ x ++ z → a.length = 1048 * k → x.length = 20 →
    Burst 16 (bitsR x) (bitsR y) → Bad op (a ++ y ++ z ++ rest) := by
  have here : ∀ (fl : Nat) (p x y z rest o : List Byte), x.length = 20 → Burst 16 (bitsR x) (bitsR y) →
      cmdOf op tag fl p ++ o = x ++ z → Bad op (y ++ z ++ rest) := by
    intro fl p x y z rest o hx hb h
    have hy := len_of_burst hb
    have hc := (Crc.C20_burst x y).2.2.1 hb
    unfold cmdOf at h
    simp only [List.append_assoc] at h
    obtain ⟨rfl, rfl⟩ := app_inj h (by simp [hx])
    have := bad_head op tag fl p y (o ++ rest) (by omega) hc.symm
    simpa using this
  induction hF with
  | @last p hp =>
    intro k a x y z rest h ha hx hb
    have hk : k = 0 := by
      have := congrArg List.length h
      simp only [List.length_append, cmdOf_length] at this
      unfold maxFrag at hp; omega
    subst hk
    have : a = [] := by simpa using ha
    subst this
    exact here flags p x y z rest p hx hb (by simpa using h)
  | @more p q out hp _ hq0 ih =>
    intro k a x y z rest h ha hx hb
    have hor : flags ||| 1 < 2 ^ 31 := Nat.or_lt_two_pow hfl (by decide)
    have hm : (flags ||| 1) % 2 = 1 := by simp [Nat.or_mod_two_eq_one]
    have hp0 : p ≠ [] := by rintro rfl; simp [maxFrag] at hp
    cases k with
    | zero =>
      have : a = [] := by simpa using ha
      subst this
      exact here _ p x y z rest (p ++ out) hx hb (by simpa using h)
    | succ k =>
      have hle : (cmdOf op tag (flags ||| 1) p ++ p).length ≤ a.length := by
        simp only [List.length_append, cmdOf_length, hp, maxFrag]; omega
      obtain ⟨a', rfl⟩ : ∃ a', a = cmdOf op tag (flags ||| 1) p ++ p ++ a' := by
        refine ⟨a.drop (cmdOf op tag (flags ||| 1) p ++ p).length, ?_⟩
        have := congrArg (List.take (cmdOf op tag (flags ||| 1) p ++ p).length) h
        rw [List.take_left' rfl, List.append_assoc, List.take_append_of_le_length hle] at this
        conv_lhs => rw [← List.take_append_drop (cmdOf op tag (flags ||| 1) p ++ p).length a, ← this]
      simp only [List.append_assoc, List.append_cancel_left_eq] at h
      have := ih k a' x y z rest (by simpa using h)
        (by simp only [List.length_append, cmdOf_length, hp, maxFrag] at ha; omega) hx hb
      have := Bad.later (by omega) htag hm (by omega) hp0 this
      simpa using this

/-- A burst of up to 16 bits in the payload of fragment `k`. -/
theorem burst_pay (op tag flags : Nat) (hop : op < 2 ^ 16) (htag : tag < 2 ^ 64) (hfl : flags < 2 ^ 31)
    {q out : List Byte} (hF : Full op tag flags q out) :
    ∀ (k : Nat) (a x y z rest : List Byte), out = a ++ x ++ z → a.length = 1048 * k + 24 →
    x.length = min 1024 (q.length - 1024 * k) →
    Burst 16 (bitsR x) (bitsR y) → Bad op (a ++ y ++ z ++ rest) := by
  have here : ∀ (fl : Nat) (p a x y z rest o : List Byte), fl < 2 ^ 32 → p.length ≤ maxFrag →
      a.length = 24 → x.length = p.length → Burst 16 (bitsR x) (bitsR y) →
      cmdOf op tag fl p ++ (p ++ o) = a ++ (x ++ z) → Bad op (a ++ y ++ z ++ rest) := by
    intro fl p a x y z rest o hf hp ha hx hb h
    have hy := len_of_burst hb
    have hc := (Crc.C20_burst x y).2.2.1 hb
    obtain ⟨rfl, h'⟩ := app_inj h (by simp [ha])
    clear h
    obtain ⟨rfl, rfl⟩ := app_inj h' (by omega)
    have := bad_pay op tag fl p y (o ++ rest) hop htag hf hp (by omega) hc.symm
    simpa using this
  induction hF with
  | @last p hp =>
    intro k a x y z rest h ha hx hb
    have hx0 : x.length ≠ 0 := by
      obtain ⟨a, u, v, z, h1, h2, h3, h4, h5⟩ := hb
      intro h0
      have e1 := congrArg List.length h1
      rw [Crc.bitsR_len, h0] at e1
      simp only [List.length_append] at e1
      have hu : u = [] := List.eq_nil_of_length_eq_zero (by omega)
      have hv : v = [] := List.eq_nil_of_length_eq_zero (by omega)
      exact h5 (by rw [hu, hv])
    have hk : k = 0 := by
      unfold maxFrag at hp; omega
    subst hk
    refine here flags p a x y z rest [] (by omega) hp (by omega) ?_ hb (by simpa using h)
    unfold maxFrag at hp; omega
  | @more p q out hp _ hq0 ih =>
    intro k a x y z rest h ha hx hb
    have hor : flags ||| 1 < 2 ^ 31 := Nat.or_lt_two_pow hfl (by decide)
    have hm : (flags ||| 1) % 2 = 1 := by simp [Nat.or_mod_two_eq_one]
    have hp0 : p ≠ [] := by rintro rfl; simp [maxFrag] at hp
    cases k with
    | zero =>
      refine here (flags ||| 1) p a x y z rest out (by omega) (by omega) (by omega) ?_ hb (by simpa using h)
      simp only [List.length_append, hp, maxFrag] at hx ⊢; omega
    | succ k =>
      have hle : (cmdOf op tag (flags ||| 1) p ++ p).length ≤ a.length := by
        simp only [List.length_append, cmdOf_length, hp, maxFrag]; omega
      obtain ⟨a', rfl⟩ : ∃ a', a = cmdOf op tag (flags ||| 1) p ++ p ++ a' := by
        refine ⟨a.drop (cmdOf op tag (flags ||| 1) p ++ p).length, ?_⟩
        have := congrArg (List.take (cmdOf op tag (flags ||| 1) p ++ p).length) h
        rw [List.take_left' rfl, List.append_assoc, List.take_append_of_le_length hle] at this
        conv_lhs => rw [← List.take_append_drop (cmdOf op tag (flags ||| 1) p ++ p).length a, ← this]
      simp only [List.append_assoc, List.append_cancel_left_eq] at h
      have := ih k a' x y z rest (by simpa using h)
        (by simp only [List.length_append, cmdOf_length, hp, maxFrag] at ha; omega)
        (by simp only [List.length_append, hp, maxFrag] at hx; omega) hb
      have := Bad.later (by omega) htag hm (by omega) hp0 this
      simpa using this

/-! ## C37 -/

/-- Where the receiver puts the terminating zero: behind the text of a TEXT command or of a job file. -/
def textEnd (op : Nat) (payload : List Byte) : Option Nat :=
  if payload = [] then none
  else if op = 5 then some (24 + fromLe ((payload.drop 4).take 4))
  else if op = 3 then some (8 + fromLe (payload.take 4))
  else none

/-- The payload as the receiver should have it: the bytes sent, one byte more (not initialised, `g`), and
the terminating zero. -/
def expected (op : Nat) (g : Byte) (payload : List Byte) : List Byte :=
  match textEnd op payload with
  | none => payload ++ [g]
  | some i => (payload ++ [g]).set i 0#8

/-- The text lies inside the payload. -/
def TextOk (op : Nat) (payload : List Byte) : Prop :=
  payload.length < 2 ^ 31 ∧ (payload ≠ [] → op = 5 → 24 ≤ payload.length) ∧
  (payload ≠ [] → op = 3 → 8 ≤ payload.length) ∧ ∀ i, textEnd op payload = some i → i ≤ payload.length

theorem set_write (buf : List Byte) (i : Nat) (h : i < buf.length) :
    memWrite buf i [0#8] = some (buf.set i 0#8) := by
  unfold memWrite
  rw [if_pos (by simpa using h)]
  congr 1
  rw [List.set_eq_take_append_cons_drop, if_pos h]
  simp

theorem terminate_ok (payload : List Byte) (g : Byte) (at_ off i : Nat)
    (ha : at_ + 4 ≤ payload.length) (hi : i = off + fromLe ((payload.drop at_).take 4))
    (hle : i ≤ payload.length) (h31 : payload.length < 2 ^ 31) :
    terminate (payload ++ [g]) at_ off = some ((payload ++ [g]).set i 0#8) := by
  have hr : memRead (payload ++ [g]) at_ 4 = some ((payload.drop at_).take 4) := by
    unfold memRead
    rw [if_pos (by simp; omega)]
    congr 1
    rw [List.drop_append_of_le_length (by omega), List.take_append_of_le_length (by simp; omega)]
  unfold terminate
  rw [hr]
  simp only [Option.bind_some]
  have h2 : int32 (fromLe ((payload.drop at_).take 4)) = (fromLe ((payload.drop at_).take 4) : Int) := by
    unfold int32; rw [if_pos (by omega)]
  rw [h2, if_neg (by omega), ← set_write _ _ (by simp; omega)]
  congr 1
  omega

theorem finish_ok (op fl tag : Nat) (g : Byte) (payload : List Byte) (hfl : fl < 2) (ht : TextOk op payload) :
    finish g (result none op fl tag payload) =
      some ⟨op, 0, tag, payload.length, expected op g payload⟩ := by
  obtain ⟨h31, h24, h8, hi⟩ := ht
  unfold finish result expected
  simp only [Option.getD_none, Nat.zero_add, List.nil_append]
  have hf : fl - fl % 2 = 0 := by omega
  rw [hf]
  by_cases hp : payload = []
  · subst hp
    simp [textEnd]
  · have hp' : payload.length ≠ 0 := by simpa using hp
    by_cases h5 : op = 5
    · subst h5
      have e : textEnd 5 payload = some (24 + fromLe ((payload.drop 4).take 4)) := by simp [textEnd, hp]
      rw [if_pos ⟨hp', rfl⟩, e]
      have := h24 hp rfl
      rw [terminate_ok payload g 4 24 _ (by omega) rfl (hi _ e) h31]
      rfl
    · by_cases h3 : op = 3
      · subst h3
        have e : textEnd 3 payload = some (8 + fromLe (payload.take 4)) := by simp [textEnd, hp]
        rw [if_neg (by simp [opText]), if_pos ⟨hp', rfl⟩, e]
        have := h8 hp rfl
        rw [terminate_ok payload g 0 8 _ (by omega) (by simp) (hi _ e) h31]
        rfl
      · have e : textEnd op payload = none := by simp [textEnd, hp, h5, h3]
        rw [if_neg (by simp [opText, h5]), if_neg (by simp [opJob, h3]), e]
        rfl

theorem recv_of_frags (wait : Bool) (op tag fl : Nat) (e : Bool) (payload out rest : List Byte) (g : Byte)
    (hop : op < 2 ^ 16) (hfl : fl < 2) (hF : Frags op tag fl e payload out) (ht : TextOk op payload)
    (env : List Rd) (hg : GoodR wait env) (hr : out.length ≤ reads env) :
    ∃ env', recvCmd wait g env (out ++ rest) =
      some (some ⟨op, 0, tag, payload.length, expected op g payload⟩, rest, env') := by
  obtain ⟨env', h, -⟩ := recvLoop_total wait op hop hF ((out ++ rest).length + 1) env rest none
    (fun m hm => by simp at hm) (by simp; omega) hg hr (by
      have := ht.1
      simp only [Small, maxCmdMb, soFar]; omega)
  refine ⟨env', ?_⟩
  unfold recvCmd
  rw [h]
  simp only
  rw [finish_ok op fl tag g payload hfl ht]
  rfl

theorem safe_of_frags (wait : Bool) (op tag fl : Nat) (e : Bool) (payload out rest : List Byte) (g : Byte)
    (hop : op < 2 ^ 16) (hfl : fl < 2) (hF : Frags op tag fl e payload out) (ht : TextOk op payload)
    (env : List Rd) m s env' (h : recvCmd wait g env (out ++ rest) = some (some m, s, env')) :
    m = ⟨op, 0, tag, payload.length, expected op g payload⟩ ∧ s = rest := by
  unfold recvCmd at h
  split at h
  · simp at h
  · simp at h
  · rename_i m1 s1 env1 h1
    obtain ⟨rfl, rfl⟩ := recvLoop_safe wait op hop hF _ env rest none (fun m hm => by simp at hm) _ _ _ h1
    rw [finish_ok op fl tag g payload hfl ht] at h
    simp only [Option.map_some, Option.some.injEq, Prod.mk.injEq] at h
    exact ⟨h.1.symm, h.2.1.symm⟩

theorem reject_of_bad (wait : Bool) (op : Nat) (hop : op < 2 ^ 16) {s : List Byte} (hb : Bad op s) (g : Byte)
    (env : List Rd) m s' env' : recvCmd wait g env s ≠ some (some m, s', env') := by
  intro h
  unfold recvCmd at h
  split at h
  · simp at h
  · simp at h
  · rename_i m1 s1 env1 h1
    exact bad_reject wait op hop hb _ env none (fun m hm => by simp at hm) _ _ _ h1

theorem send_frags {op tag : Nat} {ew ew' : List Wr} {payload out : List Byte} (htag : tag < 2 ^ 64)
    (h : sendCmd op tag ew payload = some (out, true, ew')) :
    Full op tag 0 payload out ∧ ∃ fl, fl < 2 ∧ Frags op tag fl payload.isEmpty payload out := by
  have hF := sendLoop_full _ _ _ _ _ _ _ h
  obtain ⟨fl, h1, h2⟩ := full_frags htag (by decide) (by decide) hF
  exact ⟨hF, fl, by omega, h1⟩

theorem full_len24 {op tag flags : Nat} {q out : List Byte} (h : Full op tag flags q out) : 24 ≤ out.length := by
  cases h with
  | last => simp
  | more => simp only [List.length_append, cmdOf_length]; omega

/-- **C37**: fio_net_send_cmd succeeds if the socket takes bytes, however few at a time. -/
theorem C37_send (op tag : Nat) (ew : List Wr) (payload : List Byte) (hg : GoodW ew)
    (hw : payload.length + 24 * (payload.length / 1024 + 1) ≤ writes ew) :
    ∃ out ew', sendCmd op tag ew payload = some (out, true, ew') :=
  sendLoop_total op tag _ ew payload (by omega) hg hw

/-- **C37**: what fio_net_send_cmd sent, fio_net_recv_cmd delivers: opcode, tag and payload; whatever
follows (the next command) stays in the socket.  The socket may split the bytes as it likes. -/
theorem C37 (op tag : Nat) (hop : op < 2 ^ 16) (htag : tag < 2 ^ 64) (ew ew' : List Wr)
    (payload out : List Byte) (ht : TextOk op payload)
    (hs : sendCmd op tag ew payload = some (out, true, ew'))
    (wait : Bool) (g : Byte) (er : List Rd) (hg : GoodR wait er) (hr : out.length ≤ reads er)
    (rest : List Byte) :
    ∃ er', recvCmd wait g er (out ++ rest) =
      some (some ⟨op, 0, tag, payload.length, expected op g payload⟩, rest, er') := by
  obtain ⟨-, fl, hfl, hF⟩ := send_frags htag hs
  exact recv_of_frags wait op tag fl _ payload out rest g hop hfl hF ht er hg hr

/-- **C37**: even if recv fails at some point, no other command is delivered. -/
theorem C37_safe (op tag : Nat) (hop : op < 2 ^ 16) (htag : tag < 2 ^ 64) (ew ew' : List Wr)
    (payload out : List Byte) (ht : TextOk op payload)
    (hs : sendCmd op tag ew payload = some (out, true, ew'))
    (wait : Bool) (g : Byte) (er : List Rd) (rest : List Byte) (m : Msg) (s : List Byte) (er' : List Rd)
    (h : recvCmd wait g er (out ++ rest) = some (some m, s, er')) :
    m = ⟨op, 0, tag, payload.length, expected op g payload⟩ ∧ s = rest := by
  obtain ⟨-, fl, hfl, hF⟩ := send_frags htag hs
  exact safe_of_frags wait op tag fl _ payload out rest g hop hfl hF ht er m s er' h

/-- **C37**: the same for fio_send_cmd_ext_pdu and send_vec_entry, if no write ends inside the 24 bytes of
a command.  Missing: that condition does not always hold, see `C37_ext_counterexample`. -/
theorem C37_vec_partial (op : Nat) (hop : op < 2 ^ 16) (es : List (Nat × Nat × List Byte)) (hc : Chain op es)
    (ew ew' : List Wr) (hw : Whole ew) (out : List Byte) (hs : sendVec ew es = some (out, true, ew'))
    (ht : TextOk op (es.map (·.2.2)).flatten)
    (wait : Bool) (g : Byte) (er : List Rd) (hg : GoodR wait er) (hr : out.length ≤ reads er)
    (rest : List Byte) :
    ∃ er', recvCmd wait g er (out ++ rest) =
      some (some ⟨op, 0, (es.headD (0, 0, [])).2.1, (es.map (·.2.2)).flatten.length,
        expected op g (es.map (·.2.2)).flatten⟩, rest, er') := by
  obtain ⟨fl, e, hfl, hF⟩ := sendVec_frags op es ew out ew' hc hw hs
  exact recv_of_frags wait op _ fl e _ out rest g hop hfl hF ht er hg hr

/-- **C37**: with one fragment fio_send_cmd_ext_pdu needs no condition on the writes. -/
theorem C37_ext_single (op tag : Nat) (hop : op < 2 ^ 16) (htag : tag < 2 ^ 64) (ew ew' : List Wr)
    (payload out : List Byte) (hp : payload.length ≤ 1024)
    (hs : sendExt op tag 0 ew payload = some (out, true, ew')) (ht : TextOk op payload)
    (wait : Bool) (g : Byte) (er : List Rd) (hg : GoodR wait er) (hr : out.length ≤ reads er)
    (rest : List Byte) :
    ∃ er', recvCmd wait g er (out ++ rest) =
      some (some ⟨op, 0, tag, payload.length, expected op g payload⟩, rest, er') := by
  have hF := extLoop_full _ _ _ _ _ _ _ _ (Or.inl hp) hs
  obtain ⟨fl, h1, h2⟩ := full_frags htag (by decide) (by decide) hF
  exact recv_of_frags wait op tag fl _ payload out rest g hop (by omega) h1 ht er hg hr

/-- **C37**, damage: one flipped bit anywhere in what was sent, and the command is refused.  The only bits
without effect are the payload checksum of a command without payload, see `C37_flip_empty`. -/
theorem C37_flip (op tag : Nat) (hop : op < 2 ^ 16) (htag : tag < 2 ^ 64) (ew ew' : List Wr)
    (payload out : List Byte) (hs : sendCmd op tag ew payload = some (out, true, ew'))
    (a z : List Byte) (d : Byte) (j : Nat) (hj : j < 8) (ho : out = a ++ d :: z)
    (hn : payload ≠ [] ∨ a.length < 22)
    (wait : Bool) (g : Byte) (er : List Rd) (rest : List Byte) (m : Msg) (s : List Byte) (er' : List Rd) :
    recvCmd wait g er (a ++ (d ^^^ BitVec.twoPow 8 j) :: z ++ rest) ≠ some (some m, s, er') := by
  obtain ⟨hFull, fl, hfl, hF⟩ := send_frags htag hs
  apply reject_of_bad wait op hop
  apply flip_bad op hop hF a z rest d j hj ho
  by_cases hp : payload = []
  · right
    have h22 := hn.resolve_left (by simpa using hp)
    have := full_len24 hFull
    omega
  · left
    simpa using hp

/-- **C37**: in a command without payload the payload checksum is not looked at. -/
theorem C37_flip_empty (op tag : Nat) (hop : op < 2 ^ 16) (htag : tag < 2 ^ 64) (x rest : List Byte)
    (hx : x.length = 2) (wait : Bool) (g : Byte) (er : List Rd) (hg : GoodR wait er) (hr : 24 ≤ reads er) :
    ∃ er', recvCmd wait g er
        (head op tag 0 0 ++ le 2 (crc16 (head op tag 0 0)).toNat ++ x ++ rest) =
      some (some ⟨op, 0, tag, 0, [g]⟩, rest, er') := by
  have hl : (head op tag 0 0 ++ le 2 (crc16 (head op tag 0 0)).toNat ++ x).length = 24 := by simp [hx]
  obtain ⟨env1, r1, g1, c1⟩ := recvData_total wait er
    (head op tag 0 0 ++ le 2 (crc16 (head op tag 0 0)).toNat ++ x ++ rest) 24 (by decide)
    (by simp only [List.length_append] at hl ⊢; omega) hg hr
  rw [List.take_left' hl, List.drop_left' hl] at r1
  obtain ⟨f1, f2, f3, f4, f5, f6, f7, f8⟩ := fields op tag 0 [] hop htag (by decide) (by simp)
  have e : ∀ off n, off + n ≤ 22 → field (head op tag 0 0 ++ le 2 (crc16 (head op tag 0 0)).toNat ++ x) off n =
      field (cmdOf op tag 0 []) off n := by
    intro off n h
    unfold cmdOf
    rw [field_left (head op tag 0 0 ++ _) x _ _ (by simpa using h), List.length_nil,
      field_left (head op tag 0 0 ++ _) _ _ _ (by simpa using h)]
  have hv : validCmd (head op tag 0 0 ++ le 2 (crc16 (head op tag 0 0)).toNat ++ x) = true := by
    have := valid op tag 0 [] hop htag (by decide) (by simp)
    unfold validCmd at this ⊢
    rw [e 20 2 (by decide), e 0 2 (by decide), e 16 4 (by decide)]
    rw [f6] at this
    rw [List.append_assoc, List.take_left' (by simp)]
    exact this
  refine ⟨env1, ?_⟩
  unfold recvCmd
  simp only [recvLoop, r1, hv, e 2 2 (by decide), e 16 4 (by decide), e 4 4 (by decide), e 8 8 (by decide),
    f2, f3, f4, f5]
  simp [soFar, maxCmdMb, finish]

/-- **C37**, damage: any change within 16 consecutive bits of the checksummed part of a command or of the
payload of one fragment (the fragments are 1048 bytes apart), and the command is refused. -/
theorem C37_burst (op tag : Nat) (hop : op < 2 ^ 16) (htag : tag < 2 ^ 64) (ew ew' : List Wr)
    (payload out : List Byte) (hs : sendCmd op tag ew payload = some (out, true, ew'))
    (k : Nat) (a x y z : List Byte) (ho : out = a ++ x ++ z)
    (hpos : (a.length = 1048 * k ∧ x.length = 20) ∨
      (a.length = 1048 * k + 24 ∧ x.length = min 1024 (payload.length - 1024 * k)))
    (hb : Burst 16 (bitsR x) (bitsR y))
    (wait : Bool) (g : Byte) (er : List Rd) (rest : List Byte) (m : Msg) (s : List Byte) (er' : List Rd) :
    recvCmd wait g er (a ++ y ++ z ++ rest) ≠ some (some m, s, er') := by
  obtain ⟨hF, -⟩ := send_frags htag hs
  apply reject_of_bad wait op hop
  rcases hpos with ⟨h1, h2⟩ | ⟨h1, h2⟩
  · exact burst_head op tag 0 htag (by decide) hF k a x y z rest ho h1 h2 hb
  · exact burst_pay op tag 0 hop htag (by decide) hF k a x y z rest ho h1 h2 hb

/-! ### Where the code falls short -/

theorem recvCmd_none {wait : Bool} {g : Byte} {env env' : List Rd} {s s' : List Byte}
    (h : recvLoop wait (s.length + 1) env s none = some (none, s', env')) :
    recvCmd wait g env s = some (none, s', env') := by
  unfold recvCmd; rw [h]

theorem recvCmd_some {wait : Bool} {g : Byte} {env env' : List Rd} {s s' : List Byte} {m : Msg}
    (h : recvLoop wait (s.length + 1) env s none = some (some m, s', env')) :
    recvCmd wait g env s = (finish g m).map fun m => (some m, s', env') := by
  unfold recvCmd; rw [h]

/-- fio_sendv_data moves `iov[0]` when a write ends inside the command, and fio_send_cmd_ext_pdu does not
set it up again for the next fragment: after a first write of 10 bytes, the command of the second
fragment lacks its first 10 bytes and the receiver refuses what was sent without an error. -/
theorem C37_ext_counterexample :
    let payload := List.replicate 1025 7#8
    ∃ out, sendExt 6 0 0 [.wrote 10, .wrote 2000, .wrote 2000] payload = some (out, true, []) ∧
      out.length = 1048 + 15 ∧
      ∀ g, ∃ s, recvCmd true g [.got 24, .got 1024, .got 24, .stop] out = some (none, s, []) := by
  refine ⟨cmdOf 6 0 1 (List.replicate 1024 7#8) ++ List.replicate 1024 7#8 ++ (cmdOf 6 0 0 [7#8]).drop 10 ++ [7#8],
    by decide +kernel, by decide +kernel, fun g => ⟨_, recvCmd_none (s' := []) ?_⟩⟩
  decide +kernel

/-- An empty entry in the middle of a chain ends the command at the receiver, although MORE is set; the
fragments behind it are taken for the next command. -/
theorem C37_vec_empty_counterexample :
    ∃ out, sendVec [.wrote 100, .wrote 100, .wrote 100] [(17, 0, [1#8]), (17, 0, []), (17, 0, [2#8])] =
        some (out, true, []) ∧
      ∀ g, ∃ s, recvCmd true g [.got 24, .got 1, .got 24] out =
          some (some ⟨17, 0, 0, 1, [1#8, g]⟩, s, []) ∧ s.length = 25 ∧
        recvCmd true g [.got 24, .got 1] s = some (some ⟨17, 0, 0, 1, [2#8, g]⟩, [], []) := by
  refine ⟨cmdOf 17 0 1 [1#8] ++ [1#8] ++ cmdOf 17 0 1 [] ++ cmdOf 17 0 0 [2#8] ++ [2#8], by decide +kernel,
    fun g => ⟨cmdOf 17 0 0 [2#8] ++ [2#8], ?_, by decide +kernel, ?_⟩⟩
  · rw [recvCmd_some (m := ⟨17, 1, 0, 1, [1#8]⟩) (s' := cmdOf 17 0 0 [2#8] ++ [2#8]) (env' := [])
      (by decide +kernel)]
    rfl
  · rw [recvCmd_some (m := ⟨17, 0, 0, 1, [2#8]⟩) (s' := []) (env' := []) (by decide +kernel)]
    rfl

/-- The text length is taken from the peer unchecked: the terminating zero is stored outside of the
buffer (server.c:455-457). -/
theorem C37_text_counterexample :
    let payload := le 4 0 ++ le 4 1000 ++ le 8 0 ++ le 8 0
    ∃ out, sendCmd 5 0 [.wrote 100] payload = some (out, true, []) ∧
      ∀ g, recvCmd true g [.got 24, .got 24] out = none := by
  refine ⟨cmdOf 5 0 0 (le 4 0 ++ le 4 1000 ++ le 8 0 ++ le 8 0) ++ (le 4 0 ++ le 4 1000 ++ le 8 0 ++ le 8 0),
    by decide +kernel, fun g => ?_⟩
  rw [recvCmd_some (m := ⟨5, 0, 0, 24, le 4 0 ++ le 4 1000 ++ le 8 0 ++ le 8 0⟩) (s' := []) (env' := [])
      (by decide +kernel)]
  rfl

/-- Without MSG_WAITALL (client.c:297) a command of which only a part has arrived is lost: the part read
is dropped, and the rest is not a command. -/
theorem C37_nowait_counterexample :
    ∃ out, sendCmd 7 0 [.wrote 100] [] = some (out, true, []) ∧
      ∀ g, ∃ s, recvCmd false g [.got 10, .again] out = some (none, s, []) ∧
        recvCmd false g [.got 14, .again] s = some (none, [], []) := by
  refine ⟨cmdOf 7 0 0 [], by decide +kernel, fun g => ⟨(cmdOf 7 0 0 []).drop 10,
    recvCmd_none (by decide +kernel), recvCmd_none (by decide +kernel)⟩⟩

/-! ### The hypotheses can be met -/

/-- A payload of two fragments, sent and received in uneven pieces, with another command behind it. -/
example :
    let payload := List.replicate 1024 1#8 ++ [2#8, 3#8]
    let out := cmdOf 11 9 1 (List.replicate 1024 1#8) ++ List.replicate 1024 1#8 ++ cmdOf 11 9 0 [2#8, 3#8] ++
      [2#8, 3#8]
    let er := List.replicate 1100 (Rd.got 7)
    sendCmd 11 9 [.wrote 5, .again, .wrote 500, .wrote 2000, .wrote 25, .wrote 1] payload =
        some (out, true, []) ∧
      payload.length < 2 ^ 31 ∧ textEnd 11 payload = none ∧ GoodR true er ∧ out.length ≤ reads er := by
  refine ⟨by decide +kernel, by decide +kernel, by decide +kernel, ?_, by decide +kernel⟩
  intro r hr
  obtain rfl := (List.mem_replicate.1 hr).2
  decide

/-- Text of three bytes. -/
example : textEnd 5 (le 4 0 ++ le 4 3 ++ le 8 0 ++ le 8 0 ++ [65#8, 66#8, 67#8]) = some 27 ∧
    expected 5 9#8 (le 4 0 ++ le 4 3 ++ le 8 0 ++ le 8 0 ++ [65#8, 66#8, 67#8]) =
      le 4 0 ++ le 4 3 ++ le 8 0 ++ le 8 0 ++ [65#8, 66#8, 67#8, 0#8] := by decide +kernel

/-- A chain of two entries. -/
example : Chain 17 [(17, 4, [1#8]), (17, 4, [2#8, 3#8])] ∧ Whole [.wrote 24, .wrote 30, .wrote 26] ∧
    (sendVec [.wrote 24, .wrote 30, .wrote 26] [(17, 4, [1#8]), (17, 4, [2#8, 3#8])]).isSome = true := by
  refine ⟨?_, ?_, by decide +kernel⟩
  · simp [Chain]
  · simp [Whole]

end Fio.Net
