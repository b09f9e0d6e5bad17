import Verif.TsNet.Props

namespace Fio.TsNet

/-- Bit patterns as they are. -/
def fpId : Fp := ⟨fun d => d % 256 ^ 8, fun d => d, fun _ => Nat.mod_lt _ (by decide)⟩

/-- A struct with given numbers. -/
def headOf (be : Bool) (v : F → Nat → Nat) : Head := fun f i => enc be (width f) (v f i % 256 ^ width f)

theorem num_headOf (be : Bool) (v : F → Nat → Nat) (f : F) (i : Nat) : num be (headOf be v) f i = v f i % 256 ^ width f :=
  dec_enc _ _ _ (Nat.mod_lt _ (Nat.pow_pos (by decide)))

def arr (n : Nat) : List Byte := 106 :: List.replicate (n - 1) 0

theorem arr_ok (n : Nat) (h : 2 ≤ n) : (arr n).length = n ∧ (0 : Byte) ∈ arr n := by
  refine ⟨by simp [arr]; omega, ?_⟩
  simp [arr]
  omega

/-- Two priorities for reads, one for trims, a ring of three, `nb` blocks. -/
def exV (nb : Nat) : F → Nat → Nat
  | .nrPrio, 0 => 2
  | .nrPrio, 2 => 1
  | .nrPrio, _ => 0
  | .ssDur, _ => 3
  | .ssState, _ => 32
  | .nrBlock, _ => nb
  | .total, i => 1000 + i
  | .st .clat .mean, i => 2 ^ 62 + i
  | _, i => 7 + i

def exTs (be : Bool) (nb : Nat) : Ts where
  h := headOf be (exV nb)
  name := arr 128
  verror := arr 128
  desc := arr 256
  prio := fun i j off => i + 2 * j + off % 1000
  iops := fun k => 100 + k
  bw := fun k => 200 + k
  lat := fun k => 300 + k

theorem exTs_nr (be : Bool) (nb i : Nat) (h : i < 3) : num be (exTs be nb).h .nrPrio i < 3 := by
  have e := num_headOf be (exV nb) .nrPrio i
  change num be (exTs be nb).h .nrPrio i = _ at e
  rw [e]
  obtain rfl | rfl | rfl : i = 0 ∨ i = 1 ∨ i = 2 := by omega
  all_goals simp [exV, width]

theorem exTs_ok (be : Bool) (nb : Nat) (h : nb ≤ 8192) : Ok fpId be (exTs be nb) := by
  have e : ∀ f i, num be (exTs be nb).h f i = exV nb f i % 256 ^ width f := num_headOf be (exV nb)
  have ed : num be (exTs be nb).h .ssDur 0 = 3 := by rw [e]; rfl
  refine ⟨fun f i => enc_length .., ?_, ?_, ?_, ?_, ?_, ?_, arr_ok _ (by omega), arr_ok _ (by omega), arr_ok _ (by omega)⟩
  · intro f hf i _
    rw [e]
    have hw : width f = 8 := by
      cases f <;> first | rfl | simp [isFp] at hf
    rw [hw]
    simp only [fpId]
    exact Nat.mod_eq_of_lt (Nat.mod_lt _ (by decide))
  · rw [e]
    have : exV nb .nrBlock 0 = nb := rfl
    rw [this]
    exact Nat.le_trans (Nat.mod_le _ _) h
  · intro _
    rw [ed]
    decide
  · intro i hi
    have := exTs_nr be nb i hi
    omega
  · intro i hi j hj off w d hm
    have hlt := exTs_nr be nb i hi
    have hv : (exTs be nb).prio i j off < 2000 := by
      simp only [exTs]
      omega
    have h4 : (2000 : Nat) ≤ 256 ^ 4 := by decide
    have h8 : (2000 : Nat) ≤ 256 ^ 8 := by decide
    refine ⟨?_, ?_⟩
    · rcases hm with ⟨k, hk, rfl, rfl, rfl⟩ | ⟨_, rfl, rfl⟩ | ⟨_, rfl, rfl⟩ | ⟨_, rfl, rfl⟩ <;> omega
    · intro _
      simp only [fpId]
      exact Nat.mod_eq_of_lt (by omega)
  · intro k hk
    rw [ed] at hk
    have h8 : (2000 : Nat) ≤ 256 ^ 8 := by decide
    simp only [exTs]
    refine ⟨?_, ?_, ?_⟩ <;> omega

/-- A job as in the theorem, with all that can be behind the struct. -/
theorem C95_case (be : Bool) :
    Ok fpId be (exTs be 2) ∧ num be (exTs be 2).h .nrPrio 0 = 2 ∧ num be (exTs be 2).h .nrPrio 2 = 1 ∧
    (num be (exTs be 2).h .ssState 0).testBit 5 = true ∧ num be (exTs be 2).h .ssDur 0 = 3 ∧ num be (exTs be 2).h .nrBlock 0 = 2 ∧
    Str (exTs be 2).name [106] := by
  have e : ∀ f i, num be (exTs be 2).h f i = exV 2 f i % 256 ^ width f := num_headOf be (exV 2)
  refine ⟨exTs_ok be 2 (by omega), ?_, ?_, ?_, ?_, ?_, ?_⟩
  · rw [e]; rfl
  · rw [e]; rfl
  · rw [e]; decide
  · rw [e]; rfl
  · rw [e]; rfl
  · exact ⟨by decide, List.replicate 126 0, by change arr 128 = _; decide +kernel⟩

/-- A big endian server goes through `block_infos` up to the number it has already turned into little endian (server.c:1824-1825). -/
theorem C95_block_counterexample : Ok fpId true (exTs true 1) ∧ ∀ hs, serverSend fpId true hs (exTs true 1) = none := by
  refine ⟨exTs_ok true 1 (by omega), fun hs => ?_⟩
  have hd : sendHead fpId true (exTs true 1).h = none := by
    have hp := send_fold fpId true (exTs true 1).h sendTab sendTab_nodup (fun f _ => List.replicate (width f) 0) .nrBlock (.i 8) 1 0
      (sendTab_all .nrBlock (by decide)) (by decide)
    unfold sendHead
    simp only
    rw [hp]
    exact if_pos (by decide +kernel)
  unfold serverSend
  rw [hd]

/-- A message without anything behind the struct. -/
def bare (v : F → Nat) : Msg := ⟨fun f _ => le (width f) (v f), arr 128, arr 128, arr 256, ⟨4096, 4096, fun _ => 0⟩⟩

theorem bare_none (v : F → Nat) (c1 : v .nrBlock = 0) (c2 : v .ssState = 32) (c3 : v .ssDur = 1) (c4 : v .nrPrio = 0) :
    clientRecv fpId false (bare v) = none := by
  obtain ⟨r, r1, r2, r3⟩ := recvHead_some fpId false (bare v).h 0 (by simp only [bare, c1]; rfl) (by omega)
  have hp : ∀ i, i < 3 → dec false (r .nrPrio i) = 0 := by
    intro i hi
    rw [r2 .nrPrio (Or.inr rfl) i hi]
    simp only [bare, c4]
    decide
  have hs : dec false (r .ssState 0) = 32 := by
    rw [r2 .ssState (Or.inl (by decide)) 0 (by decide)]
    simp only [bare, c2]
    decide
  have hd : dec false (r .ssDur 0) = 1 := by
    rw [r2 .ssDur (Or.inl (by decide)) 0 (by decide)]
    simp only [bare, c3]
    decide
  unfold clientRecv
  simp only
  rw [r1]
  simp only [recvDirs, hp 0 (by omega), hp 1 (by omega), hp 2 (by omega), recvPrios_zero, hs, hd]
  rw [if_pos (by decide)]
  rw [recvSs, recv, Ext.write]
  rw [if_neg]
  simp only [bare, get_length, Ext.ok, Nat.zero_add]
  omega

/-- The client believes what a message says about places and numbers: the first message has a ring of one number and nothing behind the
struct, the second 8193 blocks. -/
theorem C95_trust_counterexample :
    clientRecv fpId false (bare fun | .ssState => 32 | .ssDur => 1 | _ => 0) = none ∧
    clientRecv fpId false (bare fun | .nrBlock => 8193 | _ => 0) = none := by
  refine ⟨bare_none _ rfl rfl rfl rfl, ?_⟩
  have hd : recvHead fpId false (bare fun | .nrBlock => 8193 | _ => 0).h = none := by
    have hp := recv_fold fpId false recvTab recvTab_nodup (bare fun | .nrBlock => 8193 | _ => 0).h .nrBlock (.i 8) 1 0
      (recvTab_all .nrBlock (Or.inl (by decide))) (by decide)
    unfold recvHead
    simp only
    rw [hp]
    exact if_pos (by decide +kernel)
  unfold clientRecv
  simp only
  rw [hd]

/-- C95_arrives_partial on the job above, from a little endian to a big endian host. -/
theorem C95_mixed_case : ∃ m r, serverSend fpId false 100000 (exTs false 2) = some m ∧ clientRecv fpId true m = some r ∧
    Same false true (exTs false 2) r :=
  C95_arrives_partial fpId false true 100000 (by omega) _ (exTs_ok false 2 (by omega)) (Or.inl rfl)

end Fio.TsNet
