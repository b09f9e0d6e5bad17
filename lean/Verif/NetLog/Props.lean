import Verif.NetLog.Lemmas
/-!
# C101: the log of a job is written on the client as it would be on the server

Full property: for every log of a job, the client writes to `name.host` the lines that the job would have written to its own log file.
False of the code: with `log_offset` the last lines are missing (the header never says that there are offsets), the priority of a big
endian server arrives with its bytes exchanged, the end of a compressed log is not sent, a histogram log sent uncompressed makes the
client read beyond the message.
-/

namespace Fio.NetLog
open Fio.TsNet (enc dec swapLe enc_length dec_enc enc_swapLe)

/-- The samples of a log in their order. -/
def Log.all (l : Log) : List Smp := l.bufs.flatten

/-- A log the theorems are about: values fit, an issue time only with an offset, not a log of histograms, no compressed chunks. -/
structure Log.Ok (l : Log) : Prop where
  smps : ∀ s ∈ l.all, s.Ok
  iss : l.cfg.issue = true → l.cfg.offset = true
  type : l.type < 6
  chunks : l.chunks = []
  count : l.all.length < 2 ^ 64

/-- A host that keeps its log writes a line per sample, with all that was asked for. -/
theorem C101_local (be : Bool) (l : Log) (h : l.Ok) : local' be l = some (texts l.cfg l.all) := by
  obtain ⟨cfg, type, coarse, name, bufs, chunks⟩ := l
  have hs := h.smps
  have hi := h.iss
  simp only [Log.all] at hs hi ⊢
  unfold local'
  simp only
  clear h
  induction bufs with
  | nil => rfl
  | cons ss bufs ih =>
    rw [List.foldr_cons, ih (fun s h => hs s (by simp at h ⊢; exact Or.inr h)), flush_all be cfg hi ss (fun s h => hs s (by simp [h]))]
    simp [texts]

/-- The header of a log that is sent. -/
theorem send_hdr (sb zlib : Bool) (thread perJob : Nat) (z : Z) (l : Log) (hl : l.Ok) (b : List Byte)
    (hb : l.bufs.foldr (fun ss r => (srvConv sb (l.type == histT) l.cfg.offset l.cfg.issue 0 ss.length (bufB sb l.cfg ss)).bind
      fun b => r.map (b ++ ·)) (some []) = some b) (hp : perJob < 2 ^ 32) :
    ∃ h, send sb zlib thread perJob z l = some (h, if zlib then gz z else b) ∧ ∀ cb : Bool,
      hv cb h.nr = l.all.length ∧ hv cb h.comp = (if zlib then 1 else 0) ∧ hv cb h.off = 0 ∧ hv cb h.iss = 0 ∧ hv cb h.type = l.type
        ∧ hv cb h.perJob = perJob ∧ h.name = l.name.take 255 ∧ dec cb h.type ≠ histT := by
  have h4 : (2 : Nat) ^ 32 = 256 ^ 4 := by decide
  have ht := hl.type
  refine ⟨hdr sb zlib thread perJob l, ?_, ?_⟩
  · unfold send
    simp only
    rw [hb, Option.map_some, if_neg (by simp [hl.chunks])]
  · intro cb
    unfold hdr
    simp only
    refine ⟨?_, ?_, hv_put sb cb 4 0 (by decide), hv_put sb cb 4 0 (by decide), hv_put sb cb 4 l.type (by omega), hv_put sb cb 4 perJob (h4 ▸ hp),
      rfl, ?_⟩
    · rw [sum_len, show l.bufs.flatten.length = l.all.length from rfl, Nat.mod_eq_of_lt hl.count]
      exact hv_put sb cb 8 _ (p64 ▸ hl.count)
    · rw [compOf, if_neg (by simp [hl.chunks])]
      exact hv_put sb cb 4 _ (by cases zlib <;> decide)
    · rw [enc_swapLe]
      have : l.type = 0 ∨ l.type = 1 ∨ l.type = 2 ∨ l.type = 3 ∨ l.type = 4 ∨ l.type = 5 := by omega
      rcases this with h | h | h | h | h | h <;> rw [h] <;> cases cb <;> decide +kernel

theorem type_hist (l : Log) (h : l.Ok) : (l.type == histT) = false := by
  have := h.type
  simp [histT]; omega

/-- What a client does with a log that is not compressed on the job. -/
theorem handle_eq (cb zlib : Bool) (z : Z) (junk : Nat → Byte) (host : List Byte) (l : Log) (hl : l.Ok) (h : Hdr) (b m : List Byte) (perJob : Nat)
    (hh : hv cb h.nr = l.all.length ∧ hv cb h.comp = (if zlib then 1 else 0) ∧ hv cb h.off = 0 ∧ hv cb h.iss = 0 ∧ hv cb h.type = l.type
        ∧ hv cb h.perJob = perJob ∧ h.name = l.name.take 255 ∧ dec cb h.type ≠ histT)
    (hz : zlib = true → z.infl (gz z) = some b) (hlen : l.all.length * 40 ≤ b.length)
    (hm : cliConv cb false false false 0 l.all.length (if zlib then b.take (l.all.length * 40) else b) = some m) :
    handle cb z junk host h (if zlib then gz z else b)
      = (flush cb m (l.all.length * 40)).map fun t => (l.name.take 255 ++ ([46] ++ host), decide (perJob ≠ 0), .text t) := by
  obtain ⟨h1, h2, h3, h4, h5, h6, h7, h8⟩ := hh
  unfold handle
  simp only [h1, h2, h3, h4, h5, h6, h7, type_hist l hl]
  cases zlib with
  | false =>
    simp only [Bool.false_eq_true, if_false] at hm ⊢
    rw [if_neg (by decide), if_neg (by decide), Option.bind_some]
    simp only [ne_eq, not_true_eq_false, decide_false]
    rw [hm, Option.bind_some]
  | true =>
    simp only [if_true] at hm ⊢
    rw [if_neg (by decide)]
    unfold gunzip
    simp only [h1, h3, h4, hz rfl, Option.map_some, if_neg h8]
    simp only [ne_eq, not_true_eq_false, decide_false]
    have he : esz false false = 40 := rfl
    rw [he, show l.all.length * 40 - b.length = 0 by omega]
    simp only [List.range_zero, List.map_nil, List.append_nil, Option.bind_some]
    rw [hm, Option.bind_some]
    simp

/-- Without offsets, on hosts of any byte order: the client writes the log under the name of the host, behind the logs that are there or
as a new file, a line per sample; only the priority of a big endian server has its bytes exchanged.  With compression: if what the server
sends inflates to what was deflated. -/
theorem C101_arrives_partial (sb cb zlib : Bool) (thread perJob : Nat) (z : Z) (junk : Nat → Byte) (host : List Byte) (l : Log) (hl : l.Ok)
    (hp : perJob < 2 ^ 32) (ho : l.cfg.offset = false)
    (hz : zlib = true → ∀ h b, send sb false thread perJob z l = some (h, b) → z.infl (gz z) = some b) :
    ∃ h b, send sb zlib thread perJob z l = some (h, b) ∧
      handle cb z junk host h b = some (l.name.take 255 ++ ([46] ++ host), decide (perJob ≠ 0), .text (texts l.cfg (l.all.map (prioX sb)))) := by
  have hi : l.cfg.issue = false := by
    cases hc : l.cfg.issue with
    | false => rfl
    | true => rw [hl.iss hc] at ho; exact absurd ho (by decide)
  have hw := send_wire sb l.cfg ho hi l.bufs hl.smps
  have hw' : l.bufs.foldr (fun ss r => (srvConv sb (l.type == histT) l.cfg.offset l.cfg.issue 0 ss.length (bufB sb l.cfg ss)).bind
      fun b => r.map (b ++ ·)) (some []) = some ((l.bufs.flatten.map (wireB sb l.cfg)).flatten) := by
    simp only [ho, hi]
    simp only [type_hist l hl]
    exact hw
  obtain ⟨h, hsend, hhdr⟩ := send_hdr sb zlib thread perJob z l hl _ hw' hp
  obtain ⟨h', hsend', -⟩ := send_hdr sb false thread perJob z l hl _ hw' hp
  refine ⟨h, _, hsend, ?_⟩
  have hlen : ((l.bufs.flatten.map (wireB sb l.cfg)).flatten).length = l.all.length * 40 := by
    unfold Log.all
    generalize l.bufs.flatten = ss
    induction ss with
    | nil => rfl
    | cons s ss ih => rw [List.map_cons, List.flatten_cons, List.length_append, ih]; simp [wireB, rec, enc_length]; omega
  have hcv := cliConv_all sb cb l.cfg ho hi l.all hl.smps [] 0 rfl
  simp only [List.nil_append] at hcv
  rw [handle_eq cb zlib z junk host l hl h ((l.bufs.flatten.map (wireB sb l.cfg)).flatten)
    ((l.all.map fun s => smpB cb l.cfg (prioX sb s)).flatten) perJob (hhdr cb) (fun hzl => hz hzl h' _ hsend') (by omega) (by
      rw [← hlen, List.take_length, ite_self]; exact hcv)]
  have hf := flush_all cb l.cfg hl.iss (l.all.map (prioX sb)) (by
    intro s hs
    obtain ⟨s', hs', rfl⟩ := List.mem_map.1 hs
    exact prioX_ok sb s' (hl.smps s' hs'))
  rw [List.length_map] at hf
  have he : esz l.cfg.offset l.cfg.issue = 40 := by rw [ho, hi]; rfl
  rw [he] at hf
  have hbb : bufB cb l.cfg (l.all.map (prioX sb)) = (l.all.map fun s => smpB cb l.cfg (prioX sb s)).flatten := by
    simp [bufB, List.map_map, Function.comp_def]
  rw [← hbb, hf]
  rfl

/-- From a little endian server the file has the lines the server would have written. -/
theorem C101_same_partial (cb zlib : Bool) (thread perJob : Nat) (z : Z) (junk : Nat → Byte) (host : List Byte) (l : Log) (hl : l.Ok)
    (hp : perJob < 2 ^ 32) (ho : l.cfg.offset = false) (hn : l.name.length < 256)
    (hz : zlib = true → ∀ h b, send false false thread perJob z l = some (h, b) → z.infl (gz z) = some b) :
    ∃ h b t, send false zlib thread perJob z l = some (h, b) ∧ local' false l = some t ∧
      handle cb z junk host h b = some (l.name ++ ([46] ++ host), decide (perJob ≠ 0), .text t) := by
  obtain ⟨h, b, h1, h2⟩ := C101_arrives_partial false cb zlib thread perJob z junk host l hl hp ho hz
  refine ⟨h, b, _, h1, C101_local false l hl, ?_⟩
  rw [h2, List.take_of_length_le (by omega)]
  have : l.all.map (prioX false) = l.all := by
    rw [show prioX false = id from funext fun s => rfl, List.map_id]
  rw [this]

/-- With offsets, between little endian hosts: of `n` lines the client writes the first `40 n / size`, where `size` is 48 or, with issue
times, 56: it loses the others. -/
theorem C101_cut (zlib : Bool) (thread perJob : Nat) (z : Z) (junk : Nat → Byte) (host : List Byte) (l : Log) (hl : l.Ok)
    (hp : perJob < 2 ^ 32) (ho : l.cfg.offset = true) (hn : l.all ≠ [])
    (hz : zlib = true → ∀ h b, send false false thread perJob z l = some (h, b) → z.infl (gz z) = some b) :
    let k := l.all.length * 40 / (if l.cfg.issue then 56 else 48)
    k < l.all.length ∧ ∃ h b, send false zlib thread perJob z l = some (h, b) ∧
      handle false z junk host h b = some (l.name.take 255 ++ ([46] ++ host), decide (perJob ≠ 0), .text (texts l.cfg (l.all.take k))) := by
  intro k
  have hpos : 0 < l.all.length := List.length_pos_iff.2 hn
  have hesz : esz l.cfg.offset l.cfg.issue = if l.cfg.issue then 56 else 48 := by rw [ho]; cases l.cfg.issue <;> rfl
  have hk : k = l.all.length * 40 / esz l.cfg.offset l.cfg.issue := by rw [hesz]
  have hkl : k < l.all.length := by
    show l.all.length * 40 / (if l.cfg.issue then 56 else 48) < l.all.length
    cases l.cfg.issue
    · simp only [Bool.false_eq_true, if_false]; omega
    · simp only [if_true]; omega
  refine ⟨hkl, ?_⟩
  have hw := send_le l.cfg hl.iss l.bufs
  have hw' : l.bufs.foldr (fun ss r => (srvConv false (l.type == histT) l.cfg.offset l.cfg.issue 0 ss.length (bufB false l.cfg ss)).bind
      fun b => r.map (b ++ ·)) (some []) = some (bufB false l.cfg l.bufs.flatten) := by
    simp only [type_hist l hl]
    exact hw
  obtain ⟨h, hsend, hhdr⟩ := send_hdr false zlib thread perJob z l hl _ hw' hp
  obtain ⟨h', hsend', -⟩ := send_hdr false false thread perJob z l hl _ hw' hp
  refine ⟨h, _, hsend, ?_⟩
  have hlen : (bufB false l.cfg l.bufs.flatten).length = l.all.length * esz l.cfg.offset l.cfg.issue := bufB_length ..
  have h40 : l.all.length * 40 ≤ l.all.length * esz l.cfg.offset l.cfg.issue := Nat.mul_le_mul_left _ (by unfold esz; omega)
  generalize hB : bufB false l.cfg l.bufs.flatten = B at hlen hsend hsend' ⊢
  have hBa : bufB false l.cfg l.all = B := hB
  rw [handle_eq false zlib z junk host l hl h B (if zlib then B.take (l.all.length * 40) else B) perJob (hhdr false)
    (fun hzl => hz hzl h' _ (by simpa using hsend')) (by omega)
    (cliConv_false _ 0 _ (by cases zlib <;> simp <;> omega))]
  have hf : flush false (if zlib then B.take (l.all.length * 40) else B) (l.all.length * 40) = some (texts l.cfg (l.all.take k)) := by
    cases zlib with
    | false =>
      simp only [Bool.false_eq_true, if_false]
      have := flush_take false l.cfg hl.iss l.all hl.smps [] (l.all.length * 40) (by rw [← hk]; omega) hn
      rw [List.append_nil, hBa, ← hk] at this
      exact this
    | true =>
      simp only [if_true]
      unfold flush
      rw [if_neg (by omega)]
      have hfirst : rd false (B.take (l.all.length * 40)) 24 4 = rd false B 24 4 := by
        unfold rd
        rw [if_pos (by rw [List.length_take]; omega), if_pos (by omega), List.drop_take, List.take_take]
        congr 3
        omega
      obtain ⟨s, ss, hss⟩ : ∃ s ss, l.all = s :: ss := by
        cases hc : l.all with
        | nil => exact absurd hc hn
        | cons s ss => exact ⟨s, ss, rfl⟩
      have hr : rd false B 24 4 = some (s.dir + mask l.cfg) := by
        rw [← hBa, hss]
        have hb : bufB false l.cfg (s :: ss) = smpB false l.cfg s ++ bufB false l.cfg ss := by simp [bufB]
        rw [hb]
        exact rd_first false l.cfg s (hl.smps s (by rw [hss]; simp)) _
      rw [hfirst, hr, Option.bind_some, (bits_mask l.cfg s.dir (hl.smps s (by rw [hss]; simp)).2.2.2.1).1, ← hk]
      have hlk : (l.all.take k).length = k := by rw [List.length_take]; omega
      have hsplit : B.take (l.all.length * 40) = bufB false l.cfg (l.all.take k) ++ (bufB false l.cfg (l.all.drop k)).take (l.all.length * 40 - k * esz l.cfg.offset l.cfg.issue) := by
        have : B = bufB false l.cfg (l.all.take k) ++ bufB false l.cfg (l.all.drop k) := by rw [← bufB_append, List.take_append_drop, hBa]
        have hkm : k * esz l.cfg.offset l.cfg.issue ≤ l.all.length * 40 := by rw [hk]; exact Nat.div_mul_le_self ..
        rw [this, List.take_append, bufB_length, hlk, List.take_of_length_le (by rw [bufB_length, hlk]; exact hkm)]
      rw [hsplit]
      have := lines_eq false l.cfg hl.iss (l.all.take k) (fun s h => hl.smps s (List.mem_of_mem_take h))
        ((bufB false l.cfg (l.all.drop k)).take (l.all.length * 40 - k * esz l.cfg.offset l.cfg.issue)) [] 0 (by simp)
      rw [hlk, List.nil_append] at this
      exact this
  rw [hf]
  rfl

/-- The whole compressed stream is sent if the last buffer of the samples was full. -/
theorem C101_room (z : Z) (h : room z.outs = 0) : gz z = z.outs.flatten ++ z.fin := by rw [gz, h, List.drop_zero]

/-- A log compressed by the job is written as it is, whatever `log_store_compressed` says. -/
theorem C101_stored (sb cb zlib : Bool) (thread perJob : Nat) (z : Z) (junk : Nat → Byte) (host : List Byte) (l : Log) (hp : perJob < 2 ^ 32)
    (hc : l.chunks ≠ []) (hb : l.bufs = []) :
    ∃ h b, send sb zlib thread perJob z l = some (h, b) ∧
      handle cb z junk host h b = some (l.name.take 255 ++ ([46] ++ host), decide (perJob ≠ 0), .raw l.chunks.flatten) := by
  have h4 : (2 : Nat) ^ 32 = 256 ^ 4 := by decide
  refine ⟨hdr sb zlib thread perJob l, l.chunks.flatten, by unfold send; simp only; rw [hb, List.foldr_nil, Option.map_some, if_pos hc], ?_⟩
  unfold handle hdr
  simp only
  rw [if_pos (by rw [compOf, if_pos hc]; exact hv_put sb cb 4 2 (by decide)), hv_put sb cb 4 perJob (h4 ▸ hp)]
  rfl

/-! ## Concrete logs -/

/-- A write of 4096 bytes at 8192. -/
def s1 : Smp := ⟨7, 1500, 0, 1, 0x2004, 4096, 8192, 99⟩

/-- A read with a value that prints as a negative number. -/
def s2 : Smp := ⟨12, 2 ^ 64 - 3, 5, 0, 4, 512, 0, 100⟩

def lg (c : Cfg) (t : Nat) (bufs : List (List Smp)) : Log := ⟨c, t, 0, [108, 97, 116], bufs, []⟩

/-- No compression. -/
def noZ : Z := ⟨[], [], some⟩

theorem lg_ok (c : Cfg) (hc : c.issue = true → c.offset = true) : (lg c 2 [[s1], [s2, s1]]).Ok where
  smps := by
    intro s hs
    simp [lg, Log.all] at hs
    rcases hs with h | h | h <;> subst h <;> (refine ⟨?_, ?_, ?_, ?_, ?_, ?_, ?_, ?_⟩ <;> decide)
  iss := hc
  type := by show 2 < 6; decide
  chunks := rfl
  count := by show 3 < 2 ^ 64; decide

/-- The hypotheses of the theorems are met by a log with two buffers and three samples, with and without compression. -/
theorem C101_example : (lg ⟨false, true, true, false⟩ 2 [[s1], [s2, s1]]).Ok ∧
    local' true (lg ⟨false, true, true, false⟩ 2 [[s1], [s2, s1]])
      = some "7, 1500, 0, 1, 4096, 0x2004\n12, -3, 5, 0, 512, 0x0004\n7, 1500, 0, 1, 4096, 0x2004\n".toList :=
  ⟨lg_ok _ (fun h => by cases h), by decide +kernel⟩

example : ∃ h b, send false false 1 1 noZ (lg ⟨false, false, false, false⟩ 2 [[s1], [s2]]) = some (h, b) ∧
    handle true noZ (fun _ => 1) [104] h b = some ([108, 97, 116, 46, 104], true, .text "7, 1500, 1, 4096, 1\n12, -3, 0, 512, 0\n".toList) :=
  ⟨_, _, rfl, by decide +kernel⟩

/-- zlib as the identity, in full buffers, meets the hypothesis on compression. -/
example : let l := lg ⟨false, false, false, false⟩ 2 [[s1], [s2]]
    let z : Z := ⟨[], bufB false l.cfg l.all, some⟩
    ∀ h b, send false false 1 1 z l = some (h, b) → z.infl (gz z) = some b := by
  intro l z h b hs
  have : (send false false 1 1 z l).map Prod.snd = some (bufB false l.cfg l.all) := by decide +kernel
  rw [hs] at this
  have h2 : bufB false l.cfg l.all = b := by simpa using this.symm
  rw [C101_room z rfl, ← h2]
  rfl

/-- A log with an offset: one sample, and nothing is written. -/
theorem C101_offset_counterexample : ∃ h b, send false false 1 0 noZ (lg ⟨true, false, false, false⟩ 2 [[s1]]) = some (h, b) ∧
    handle false noZ (fun _ => 0) [104] h b = some ([108, 97, 116, 46, 104], false, .text []) ∧
    local' false (lg ⟨true, false, false, false⟩ 2 [[s1]]) = some "7, 1500, 1, 4096, 8192, 1\n".toList :=
  ⟨_, _, rfl, by decide +kernel, by decide +kernel⟩

set_option maxRecDepth 4000 in
/-- Between big endian hosts the samples with offsets are also converted at wrong places: of three lines two are written, and the second
has a direction that does not exist. -/
theorem C101_big_counterexample : ∃ h b, send true false 1 0 noZ (lg ⟨true, false, false, false⟩ 2 [[s1, s1, s1]]) = some (h, b) ∧
    handle true noZ (fun _ => 0) [104] h b
      = some ([108, 97, 116, 46, 104], false, .text "7, 1500, 1, 4096, 8192, 0\n7, 1500, 1056, 4096, 8192, 0\n".toList) ∧
    local' true (lg ⟨true, false, false, false⟩ 2 [[s1, s1, s1]])
      = some "7, 1500, 1, 4096, 8192, 1\n7, 1500, 1, 4096, 8192, 1\n7, 1500, 1, 4096, 8192, 1\n".toList :=
  ⟨_, _, rfl, by decide +kernel, by decide +kernel⟩

/-- The priority of a big endian server. -/
theorem C101_prio_counterexample : ∃ h b, send true false 1 0 noZ (lg ⟨false, true, false, false⟩ 2 [[s1]]) = some (h, b) ∧
    handle true noZ (fun _ => 0) [104] h b = some ([108, 97, 116, 46, 104], false, .text "7, 1500, 1, 4096, 0x0420\n".toList) ∧
    local' true (lg ⟨false, true, false, false⟩ 2 [[s1]]) = some "7, 1500, 1, 4096, 0x2004\n".toList :=
  ⟨_, _, rfl, by decide +kernel, by decide +kernel⟩

/-- A histogram log that is sent without compression: the client stores beyond the message. -/
theorem C101_hist_counterexample : ∃ h b, send false false 1 0 noZ (lg ⟨false, false, false, false⟩ 6 [[s1]]) = some (h, b) ∧
    handle false noZ (fun _ => 0) [104] h b = none :=
  ⟨_, _, rfl, by decide +kernel⟩

/-- The bytes of a log of one sample. -/
def data1 : List Byte := bufB false ⟨false, false, false, false⟩ [s1]

/-- A `deflate` that holds the last byte back until `Z_FINISH`, as zlib may hold back bits with `Z_BLOCK`. -/
def zHold : Z := ⟨[data1.dropLast], [0, 255], fun p => some (p.take 40)⟩

/-- The end of the compressed log is not sent: every beginning of the stream inflates to a beginning of the samples and the whole of it to
all of them, but the client writes what was in its memory. -/
theorem C101_finish_counterexample :
    zHold.infl (zHold.outs.flatten ++ zHold.fin) = some data1 ∧
    (∀ n, ∃ o, zHold.infl ((zHold.outs.flatten ++ zHold.fin).take n) = some o ∧ o <+: data1) ∧
    ∃ h b, send false true 1 0 zHold (lg ⟨false, false, false, false⟩ 2 [[s1]]) = some (h, b) ∧
      handle false zHold (fun _ => 1) [104] h b = some ([108, 97, 116, 46, 104], false, .text "7, 1500, 1, 72057594037932032, 1\n".toList) := by
  refine ⟨by decide +kernel, ?_, _, _, rfl, by decide +kernel⟩
  intro n
  refine ⟨_, rfl, ?_⟩
  have h : (zHold.outs.flatten ++ zHold.fin).take 40 = data1 := by decide +kernel
  rw [List.take_take, Nat.min_comm, ← List.take_take, h]
  exact List.take_prefix ..

/-- Names that differ behind their first 255 bytes are one file. -/
theorem C101_name_counterexample : ∃ a b : List Byte, a ≠ b ∧ nameOf a = nameOf b :=
  ⟨List.replicate 255 97 ++ [1], List.replicate 255 97 ++ [2], by decide +kernel, by decide +kernel⟩

end Fio.NetLog
