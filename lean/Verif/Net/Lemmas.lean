import Verif.Net.Model
import Verif.Crc.Props
/-
Lemmas on the transport: what fio_sendv_data and fio_recv_data move, and what a fragment looks like.
-/
namespace Fio.Net
open Crc (crc16)

/-! ## Sending -/

theorem iovAdvance_spec : ∀ (cur done : List (List Byte)) (n : Nat), n ≤ cur.flatten.length →
    ∃ d c, iovAdvance done cur n = some (d, c) ∧ c.flatten = cur.flatten.drop n := by
  intro cur
  induction cur with
  | nil =>
    intro done n hn
    have : n = 0 := by simpa using hn
    subst this
    exact ⟨done, [], rfl, by simp⟩
  | cons v cur ih =>
    intro done n hn
    match n with
    | 0 => exact ⟨done, v :: cur, rfl, by simp⟩
    | n + 1 =>
      simp only [List.flatten_cons, List.length_append] at hn
      by_cases hv : v.length ≤ n + 1
      · obtain ⟨d, c, h1, h2⟩ := ih (done ++ [v]) (n + 1 - v.length) (by omega)
        refine ⟨d, c, by simp only [iovAdvance, if_pos hv, h1], ?_⟩
        rw [h2, List.flatten_cons, List.drop_append]
        simp [List.drop_eq_nil_of_le hv]
      · refine ⟨done, v.drop (n + 1) :: cur, by simp only [iovAdvance, if_neg hv], ?_⟩
        rw [List.flatten_cons, List.flatten_cons, List.drop_append]
        rw [show n + 1 - v.length = 0 by omega, List.drop_zero]

/-- If fio_sendv_data reports success, all the bytes went out in order. -/
theorem sendv_ok : ∀ (env : List Wr) (done cur : List (List Byte)) (total : Nat) out iov env',
    cur.flatten.length = total → total ≠ 0 →
    sendv env done cur total = some (out, true, iov, env') → out = cur.flatten := by
  intro env
  induction env with
  | nil => intro done cur total out iov env' _ _ h; simp [sendv] at h
  | cons w env ih =>
    intro done cur total out iov env' hl ht h
    cases w with
    | again => exact ih done cur total out iov env' hl ht h
    | stop => simp [sendv, ht] at h
    | wrote n =>
      simp only [sendv] at h
      generalize hk : Nat.min n cur.flatten.length = k at h
      have hkl : k ≤ cur.flatten.length := by rw [← hk]; exact Nat.min_le_right _ _
      split at h
      · simp [ht] at h
      · split at h
        · simp only [Option.some.injEq, Prod.mk.injEq] at h
          rw [← h.1, List.take_of_length_le (by omega)]
        · obtain ⟨d, c, h1, h2⟩ := iovAdvance_spec cur done k hkl
          rw [h1] at h
          simp only [Option.map_eq_some_iff] at h
          obtain ⟨⟨o2, b2, i2, e2⟩, h3, h4⟩ := h
          simp only [Prod.mk.injEq] at h4
          obtain ⟨h4, rfl, rfl, rfl⟩ := h4
          have := ih d c (total - k) o2 _ _ (by rw [h2, List.length_drop, hl]) (by omega) h3
          rw [← h4, this, h2, List.take_append_drop]

/-- No error and no end of the connection. -/
def GoodW (env : List Wr) : Prop := ∀ w ∈ env, w ≠ .stop ∧ w ≠ .wrote 0

/-- The system calls that write something. -/
def writes (env : List Wr) : Nat := env.countP fun w => match w with | .wrote _ => true | _ => false

/-- With as many successful writes as bytes, fio_sendv_data succeeds. -/
theorem sendv_total : ∀ (env : List Wr) (done cur : List (List Byte)) (total : Nat),
    cur.flatten.length = total → total ≠ 0 → GoodW env → total ≤ writes env →
    ∃ out iov env', sendv env done cur total = some (out, true, iov, env') ∧ GoodW env' ∧
      writes env ≤ writes env' + total := by
  intro env
  induction env with
  | nil => intro done cur total _ ht _ hw; simp [writes] at hw; omega
  | cons w env ih =>
    intro done cur total hl ht hg hw
    have hg' : GoodW env := fun x hx => hg x (List.mem_cons_of_mem _ hx)
    cases w with
    | again =>
      have e : writes (.again :: env) = writes env := by simp [writes]
      rw [e] at hw ⊢
      exact ih done cur total hl ht hg' hw
    | stop => exact absurd rfl (hg _ List.mem_cons_self).1
    | wrote n =>
      have hn : n ≠ 0 := by
        rintro rfl
        exact (hg _ List.mem_cons_self).2 rfl
      have e : writes (.wrote n :: env) = writes env + 1 := by simp [writes]
      rw [e] at hw ⊢
      simp only [sendv]
      generalize hk : Nat.min n cur.flatten.length = k
      have hk' : min n cur.flatten.length = k := hk
      rw [if_neg (by omega)]
      split
      · exact ⟨_, _, _, rfl, hg', by omega⟩
      · obtain ⟨d, c, h1, h2⟩ := iovAdvance_spec cur done k (by omega)
        rw [h1]
        obtain ⟨o, i, e', h3, h4, h5⟩ := ih d c (total - k) (by rw [h2, List.length_drop, hl]) (by omega)
          hg' (by omega)
        exact ⟨List.take k cur.flatten ++ o, i, e', by simp only [h3, Option.map_some], h4, by omega⟩

/-! ## Receiving -/

/-- If fio_recv_data reports success, it took the next `len` bytes. -/
theorem recvData_ok (wait : Bool) : ∀ (env : List Rd) (s : List Byte) (len : Nat) d s' env', len ≠ 0 →
    recvData wait env s len = some (true, d, s', env') →
    d = s.take len ∧ s' = s.drop len ∧ len ≤ s.length := by
  intro env
  induction env with
  | nil => intro s len d s' env' _ h; simp [recvData] at h
  | cons r env ih =>
    intro s len d s' env' hl h
    cases r with
    | again =>
      simp only [recvData] at h
      split at h
      · exact ih s len d s' env' hl h
      · simp [hl] at h
    | stop => simp [recvData, hl] at h
    | got n =>
      simp only [recvData] at h
      generalize hk : Nat.min n (Nat.min len s.length) = k at h
      have hk' : min n (min len s.length) = k := hk
      split at h
      · simp [hl] at h
      · split at h
        · simp only [Option.some.injEq, Prod.mk.injEq, true_and] at h
          obtain ⟨rfl, rfl, _⟩ := h
          have : len = k := by omega
          subst this
          exact ⟨rfl, rfl, by omega⟩
        · simp only [Option.map_eq_some_iff] at h
          obtain ⟨⟨b2, d2, s2, e2⟩, h3, h4⟩ := h
          simp only [Prod.mk.injEq] at h4
          obtain ⟨rfl, rfl, rfl, rfl⟩ := h4
          obtain ⟨h5, h6, h7⟩ := ih (s.drop k) (len - k) _ _ _ (by omega) h3
          rw [List.length_drop] at h7
          refine ⟨?_, ?_, by omega⟩
          · rw [h5, ← List.take_add, show k + (len - k) = len by omega]
          · rw [h6, List.drop_drop, show k + (len - k) = len by omega]

/-- No error, no end of the connection, and, if fio_recv_data does not wait, bytes are there. -/
def GoodR (wait : Bool) (env : List Rd) : Prop :=
  ∀ r ∈ env, r ≠ .stop ∧ r ≠ .got 0 ∧ (r = .again → wait = true)

/-- The system calls that read something. -/
def reads (env : List Rd) : Nat := env.countP fun r => match r with | .got _ => true | _ => false

/-- With as many successful reads as bytes, fio_recv_data succeeds. -/
theorem recvData_total (wait : Bool) : ∀ (env : List Rd) (s : List Byte) (len : Nat), len ≠ 0 →
    len ≤ s.length → GoodR wait env → len ≤ reads env →
    ∃ env', recvData wait env s len = some (true, s.take len, s.drop len, env') ∧ GoodR wait env' ∧
      reads env ≤ reads env' + len := by
  intro env
  induction env with
  | nil => intro s len h1 _ _ hw; simp [reads] at hw; omega
  | cons r env ih =>
    intro s len h1 h2 hg hw
    have hg' : GoodR wait env := fun x hx => hg x (List.mem_cons_of_mem _ hx)
    cases r with
    | again =>
      have e : reads (.again :: env) = reads env := by simp [reads]
      rw [e] at hw ⊢
      have hwt := (hg _ List.mem_cons_self).2.2 rfl
      obtain ⟨env', h⟩ := ih s len h1 h2 hg' hw
      exact ⟨env', by simp only [recvData, if_pos hwt]; exact h.1, h.2⟩
    | stop => exact absurd rfl (hg _ List.mem_cons_self).1
    | got n =>
      have hn : n ≠ 0 := by
        rintro rfl
        exact (hg _ List.mem_cons_self).2.1 rfl
      have e : reads (.got n :: env) = reads env + 1 := by simp [reads]
      rw [e] at hw ⊢
      simp only [recvData]
      generalize hk : Nat.min n (Nat.min len s.length) = k
      have hk' : min n (min len s.length) = k := hk
      rw [if_neg (by omega)]
      split
      · have : len = k := by omega
        subst this
        exact ⟨env, rfl, hg', by omega⟩
      · obtain ⟨env', h3, h4, h5⟩ := ih (s.drop k) (len - k) (by omega) (by rw [List.length_drop]; omega)
          hg' (by omega)
        refine ⟨env', ?_, h4, by omega⟩
        rw [h3, Option.map_some]
        simp only
        rw [← List.take_add, List.drop_drop, show k + (len - k) = len by omega]

/-! ## A fragment -/

@[simp] theorem head_length (op tag flags len : Nat) : (head op tag flags len).length = 20 := by
  simp [head]

@[simp] theorem cmdOf_length (op tag flags : Nat) (p : List Byte) : (cmdOf op tag flags p).length = 24 := by
  simp [cmdOf]

theorem field_eq (a x z : List Byte) (off n : Nat) (ha : a.length = off) (hx : x.length = n) :
    field (a ++ x ++ z) off n = fromLe x := by
  unfold field
  rw [List.append_assoc, List.drop_left' ha, List.take_left' hx]

/-- The fields of a command as sent. -/
theorem fields (op tag flags : Nat) (p : List Byte) (hop : op < 2 ^ 16) (htag : tag < 2 ^ 64)
    (hfl : flags < 2 ^ 32) (hp : p.length ≤ maxFrag) :
    let h := cmdOf op tag flags p
    field h 0 2 = version ∧ field h 2 2 = op ∧ field h 4 4 = flags ∧ field h 8 8 = tag ∧
    field h 16 4 = p.length ∧ h.take 20 = head op tag flags p.length ∧
    field h 20 2 = (crc16 (head op tag flags p.length)).toNat ∧ field h 22 2 = (crc16 p).toNat := by
  intro h
  have hc : h = le 2 version ++ le 2 op ++ le 4 flags ++ le 8 tag ++ le 4 p.length ++
      le 2 (crc16 (head op tag flags p.length)).toNat ++ le 2 (crc16 p).toNat := rfl
  have hp' : p.length < 256 ^ 4 := by unfold maxFrag at hp; omega
  refine ⟨?_, ?_, ?_, ?_, ?_, ?_, ?_, ?_⟩
  · have := field_eq [] (le 2 version) (h.drop 2) 0 2 rfl (by simp)
    rw [hc] at this ⊢
    simp only [List.append_assoc] at this ⊢
    rw [List.drop_left' (by simp)] at this
    simp only [List.nil_append] at this
    rw [this, fromLe_le]; rfl
  · rw [hc]
    rw [show le 2 version ++ le 2 op ++ le 4 flags ++ le 8 tag ++ le 4 p.length ++
      le 2 (crc16 (head op tag flags p.length)).toNat ++ le 2 (crc16 p).toNat =
      le 2 version ++ le 2 op ++ (le 4 flags ++ le 8 tag ++ le 4 p.length ++
      le 2 (crc16 (head op tag flags p.length)).toNat ++ le 2 (crc16 p).toNat) by simp]
    rw [field_eq _ _ _ 2 2 (by simp) (by simp), fromLe_le, Nat.mod_eq_of_lt (by omega)]
  · rw [hc]
    rw [show le 2 version ++ le 2 op ++ le 4 flags ++ le 8 tag ++ le 4 p.length ++
      le 2 (crc16 (head op tag flags p.length)).toNat ++ le 2 (crc16 p).toNat =
      (le 2 version ++ le 2 op) ++ le 4 flags ++ (le 8 tag ++ le 4 p.length ++
      le 2 (crc16 (head op tag flags p.length)).toNat ++ le 2 (crc16 p).toNat) by simp]
    rw [field_eq _ _ _ 4 4 (by simp) (by simp), fromLe_le, Nat.mod_eq_of_lt (by omega)]
  · rw [hc]
    rw [show le 2 version ++ le 2 op ++ le 4 flags ++ le 8 tag ++ le 4 p.length ++
      le 2 (crc16 (head op tag flags p.length)).toNat ++ le 2 (crc16 p).toNat =
      (le 2 version ++ le 2 op ++ le 4 flags) ++ le 8 tag ++ (le 4 p.length ++
      le 2 (crc16 (head op tag flags p.length)).toNat ++ le 2 (crc16 p).toNat) by simp]
    rw [field_eq _ _ _ 8 8 (by simp) (by simp), fromLe_le, Nat.mod_eq_of_lt (by omega)]
  · rw [hc]
    rw [show le 2 version ++ le 2 op ++ le 4 flags ++ le 8 tag ++ le 4 p.length ++
      le 2 (crc16 (head op tag flags p.length)).toNat ++ le 2 (crc16 p).toNat =
      (le 2 version ++ le 2 op ++ le 4 flags ++ le 8 tag) ++ le 4 p.length ++ (
      le 2 (crc16 (head op tag flags p.length)).toNat ++ le 2 (crc16 p).toNat) by simp]
    rw [field_eq _ _ _ 16 4 (by simp) (by simp), fromLe_le, Nat.mod_eq_of_lt hp']
  · show List.take 20 (head op tag flags p.length ++ _ ++ _) = _
    rw [List.append_assoc, List.take_left' (by simp)]
  · show field (head op tag flags p.length ++ le 2 _ ++ le 2 _) 20 2 = _
    rw [field_eq _ _ _ 20 2 (by simp) (by simp), fromLe_le, Nat.mod_eq_of_lt]
    exact BitVec.isLt _
  · show field (head op tag flags p.length ++ le 2 _ ++ le 2 _) 22 2 = _
    rw [show head op tag flags p.length ++ le 2 (crc16 (head op tag flags p.length)).toNat ++
      le 2 (crc16 p).toNat = (head op tag flags p.length ++ le 2 (crc16 (head op tag flags p.length)).toNat) ++
      le 2 (crc16 p).toNat ++ [] by simp]
    rw [field_eq _ _ _ 22 2 (by simp) (by simp), fromLe_le, Nat.mod_eq_of_lt]
    exact BitVec.isLt _

theorem valid (op tag flags : Nat) (p : List Byte) (hop : op < 2 ^ 16) (htag : tag < 2 ^ 64)
    (hfl : flags < 2 ^ 32) (hp : p.length ≤ maxFrag) : validCmd (cmdOf op tag flags p) = true := by
  obtain ⟨h1, -, -, -, h5, h6, h7, -⟩ := fields op tag flags p hop htag hfl hp
  unfold validCmd
  rw [h6, h7, h1, h5]
  simp
  omega

end Fio.Net
