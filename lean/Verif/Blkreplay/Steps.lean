import Verif.Blkreplay.Lemmas
/-
Lemmas for C99: one record, and all of them.
-/
namespace Fio.Blkreplay
open Fio.Blkmerge (Trace Rec fileBytes recBytes)

/-- The counters say what was queued. -/
structure Cnt (s : St) : Prop where
  ios : ∀ d, s.ios d = ((got s).filter (fun i => i.dd = d)).length
  big : ∀ i ∈ got s, i.len ≤ s.bs i.dd
  bs : ∀ d, s.bs d = 0 ∨ ∃ i ∈ got s, i.dd = d ∧ i.len = s.bs d
  depth : ∀ d, 0 ≤ s.depth d

/-- Appending an I/O keeps the invariant. -/
theorem inv_push {o : Opts} {s : St} (h : Inv o s) {dd : Ddir} {off len delay no n : Nat}
    (hn : (names s)[no]? = some n) :
    Inv o { s with evs := s.evs ++ [.io dd off len delay no] } ∧
    got { s with evs := s.evs ++ [.io dd off len delay no] } = got s ++ [⟨dd, off, len, delay, n⟩] := by
  have hno : no < s.files.length := by
    have := (List.getElem?_eq_some_iff.mp hn).1
    simpa [names] using this
  refine ⟨⟨h.look, h.cache, ?_, ?_, ?_⟩, ?_⟩
  · intro k hk
    simp [h.opened k hk]
  · intro a b dd' off' len' delay' no' he
    rcases snoc_split he with ⟨h1, h2, _⟩ | ⟨b', _, h2⟩
    · cases h2
      rw [h1]
      exact h.opened _ hno
    · exact h.order a b' _ _ _ _ _ h2
  · intro dd' off' len' delay' no' hm
    rcases List.mem_append.mp hm with hm | hm
    · exact h.valid _ _ _ _ _ hm
    · rw [List.mem_singleton] at hm
      cases hm
      exact hno
  · rw [got, byName_append]
    simp only [byName]
    rw [show names { s with evs := s.evs ++ [.io dd off len delay no] } = names s from rfl, hn]
    rfl

theorem got_congr {s s' : St} (h1 : s'.files = s.files) (h2 : s'.evs = s.evs) : got s' = got s := by
  unfold got names
  rw [h1, h2]

theorem Inv.congr {o : Opts} {s s' : St} (h : Inv o s) (h1 : s'.files = s.files) (h2 : s'.evs = s.evs)
    (h3 : s'.cacheMaj = s.cacheMaj) (h4 : s'.cacheMin = s.cacheMin) (h5 : s'.cacheNo = s.cacheNo) :
    Inv o s' := by
  refine ⟨?_, ?_, ?_, ?_, ?_⟩
  · rw [h1]; exact h.look
  · unfold names; rw [h1, h3, h4, h5]; exact h.cache
  · rw [h1, h2]; exact h.opened
  · rw [h2]; exact h.order
  · rw [h1, h2]; exact h.valid

/-- What a step does to a state: the I/Os it adds and the time it leaves. -/
structure Step (o : Opts) (s s' : St) (add : List Io) (last : Nat) : Prop where
  inv : Inv o s'
  cnt : Cnt s'
  got : got s' = got s ++ add
  last : s'.last = last

theorem push_step {o : Opts} {s : St} (h : Inv o s) (hc : Cnt s) {dev n : Nat} (hdev : dev < 2 ^ 32)
    (hl : o.lookup (dev / 2 ^ 20) (dev % 2 ^ 20) = some n) (dd : Ddir) (off len delay : Nat)
    (bs : Ddir → Nat) (size : Nat)
    (hbs : bs = if len > s.bs dd then upd s.bs dd len else s.bs) :
    Step o s
      { (addFile o s dev).2 with
        ios := upd (addFile o s dev).2.ios dd ((addFile o s dev).2.ios dd + 1)
        bs := bs
        size := size
        evs := (addFile o s dev).2.evs ++ [.io dd off len delay (addFile o s dev).1] }
      [⟨dd, off, len, delay, n⟩] s.last := by
  obtain ⟨fs, e, cm, cn, c, he, hi, hg, hn⟩ := addFile_spec h hdev hl
  obtain ⟨hp1, hp2⟩ := inv_push hi (dd := dd) (off := off) (len := len) (delay := delay) hn
  rw [hg] at hp2
  have hgot : got { (addFile o s dev).2 with
        ios := upd (addFile o s dev).2.ios dd ((addFile o s dev).2.ios dd + 1)
        bs := bs
        size := size
        evs := (addFile o s dev).2.evs ++ [.io dd off len delay (addFile o s dev).1] } =
      got s ++ [⟨dd, off, len, delay, n⟩] := hp2
  have hios : (addFile o s dev).2.ios = s.ios := by rw [he]
  have hdep : (addFile o s dev).2.depth = s.depth := by rw [he]
  have hlast : (addFile o s dev).2.last = s.last := by rw [he]
  have hle : ∀ d, s.bs d ≤ bs d := by
    intro d
    rw [hbs]
    split
    · unfold upd
      split
      · rename_i hd; rw [hd]; omega
      · omega
    · omega
  refine ⟨hp1.congr rfl rfl rfl rfl rfl, ⟨?_, ?_, ?_, ?_⟩, hgot, hlast⟩
  · intro d
    rw [hgot, List.filter_append, List.length_append]
    simp only [hios]
    by_cases hd : d = dd
    · subst hd
      simp [upd, hc.ios]
    · simp [upd, hd, hc.ios, Ne.symm hd]
  · intro i hi
    rw [hgot] at hi
    simp only
    rcases List.mem_append.mp hi with hi | hi
    · exact Nat.le_trans (hc.big i hi) (hle _)
    · rw [List.mem_singleton] at hi
      subst hi
      simp only
      rw [hbs]
      split
      · simp [upd]
      · omega
  · intro d
    rw [hgot]
    simp only
    by_cases hgt : len > s.bs dd
    · rw [if_pos hgt] at hbs
      by_cases hd : d = dd
      · subst hd
        right
        exact ⟨⟨d, off, len, delay, n⟩, by simp, rfl, by rw [hbs]; simp [upd]⟩
      · have : bs d = s.bs d := by rw [hbs]; simp [upd, hd]
        rw [this]
        rcases hc.bs d with h | ⟨i, h1, h2⟩
        · exact .inl h
        · exact .inr ⟨i, by simp [h1], h2⟩
    · rw [if_neg hgt] at hbs
      rw [hbs]
      rcases hc.bs d with h | ⟨i, h1, h2⟩
      · exact .inl h
      · exact .inr ⟨i, by simp [h1], h2⟩
  · intro d
    simp only [hdep]
    exact hc.depth d

theorem depths_spec (s : St) (t : Trace) :
    (depths s t).files = s.files ∧ (depths s t).evs = s.evs ∧ (depths s t).cacheMaj = s.cacheMaj ∧
    (depths s t).cacheMin = s.cacheMin ∧ (depths s t).cacheNo = s.cacheNo ∧ (depths s t).ios = s.ios ∧
    (depths s t).bs = s.bs ∧ (depths s t).last = s.last ∧
    ((∀ d, 0 ≤ s.depth d) → ∀ d, 0 ≤ (depths s t).depth d) := by
  unfold depths
  split
  · exact ⟨rfl, rfl, rfl, rfl, rfl, rfl, rfl, rfl, id⟩
  · simp only
    split
    · exact ⟨rfl, rfl, rfl, rfl, rfl, rfl, rfl, rfl, id⟩
    · split
      · exact ⟨rfl, rfl, rfl, rfl, rfl, rfl, rfl, rfl, id⟩
      · split
        · refine ⟨rfl, rfl, rfl, rfl, rfl, rfl, rfl, rfl, ?_⟩
          intro h x
          simp only [upd]
          split
          · rename_i d _ _ _ _ _
            have := h d
            split <;> omega
          · exact h x
        · exact ⟨rfl, rfl, rfl, rfl, rfl, rfl, rfl, rfl, id⟩

theorem Cnt.congr {s s' : St} (h : Cnt s) (hg : got s' = got s) (hi : s'.ios = s.ios) (hb : s'.bs = s.bs)
    (hd : ∀ d, 0 ≤ s'.depth d) : Cnt s' := by
  refine ⟨?_, ?_, ?_, hd⟩
  · rw [hg, hi]; exact h.ios
  · rw [hg, hb]; exact h.big
  · rw [hg, hb]; exact h.bs

theorem same_step {o : Opts} {s s' : St} (h : Inv o s) (hc : Cnt s) (h1 : s'.files = s.files)
    (h2 : s'.evs = s.evs) (h3 : s'.cacheMaj = s.cacheMaj) (h4 : s'.cacheMin = s.cacheMin)
    (h5 : s'.cacheNo = s.cacheNo) (h6 : s'.ios = s.ios) (h7 : s'.bs = s.bs)
    (h8 : ∀ d, 0 ≤ s'.depth d) : Step o s s' [] s'.last :=
  ⟨h.congr h1 h2 h3 h4 h5, hc.congr (got_congr h1 h2) h6 h7 h8, by simp [got_congr h1 h2], rfl⟩

/-- What a trace needs to be replayed. -/
structure FitsT (o : Opts) (t : Trace) : Prop where
  align : o.align = 0 ∨ ∃ k, k < 32 ∧ o.align = 2 ^ k
  sector : t.sector.toNat * 512 < 2 ^ 64
  bytes : t.bytes.toNat + o.align ≤ 2 ^ 32
  found : ∃ n, deviceOf o t = some n

/-- Adding the file only. -/
theorem file_step {o : Opts} {s : St} (h : Inv o s) (hc : Cnt s) {dev n : Nat} (hdev : dev < 2 ^ 32)
    (hl : o.lookup (dev / 2 ^ 20) (dev % 2 ^ 20) = some n) : Step o s (addFile o s dev).2 [] s.last := by
  obtain ⟨fs, e, cm, cn, c, he, hi, hg, hn⟩ := addFile_spec h hdev hl
  refine ⟨hi, hc.congr hg (by rw [he]) (by rw [he]) ?_, by simp [hg], by rw [he]⟩
  rw [he]
  exact hc.depth

theorem queue_step {o : Opts} {s : St} {t : Trace} (h : Inv o s) (hc : Cnt s) (hf : FitsT o t) :
    Step o s (queueTrace o s t)
      (if Queued t then (if Kept o t then [ioOf o s.last ((deviceOf o t).getD 0) t] else []) else [])
      (if Queued t then t.time.toNat else s.last) := by
  obtain ⟨n, hn⟩ := hf.found
  have hdev := t.device.isLt
  have hl : o.lookup (t.device.toNat / 2 ^ 20) (t.device.toNat % 2 ^ 20) = some n := hn
  unfold queueTrace
  by_cases h1 : t.action.toNat % 65536 = 1
  · rw [if_neg (by simpa using (low_iff t).mpr h1), cat_eq t 10 (by decide)]
    cases h10 : has t 10 with
    | true =>
      have hq : ¬ Queued t := by simp [Queued, h10]
      rw [if_neg hq, if_neg hq, if_pos rfl]
      exact same_step h hc rfl rfl rfl rfl rfl rfl rfl hc.depth
    | false =>
      have hq : Queued t := ⟨h1, h10⟩
      rw [if_pos hq, if_pos hq, if_neg (by simp)]
      simp only [cat_eq t 13 (by decide), cat_eq t 2 (by decide)]
      have h0 : Inv o { s with last := t.time.toNat } := h.congr rfl rfl rfl rfl rfl
      have hc0 : Cnt { s with last := t.time.toNat } := hc.congr rfl rfl rfl hc.depth
      have hdl : delaySince o s.last t.time.toNat =
        (if s.last = 0 ∨ o.noStall = true ∨ t.time.toNat < s.last then 0
          else if o.timeScale = 100 then t.time.toNat - s.last else o.stretch (t.time.toNat - s.last)) := rfl
      rw [bytes_eq hf.align hf.bytes]
      cases h13 : has t 13 with
      | true =>
        have hk : kind t = .trim := by simp [kind, h13]
        rw [if_pos rfl]
        unfold discard
        cases hs : o.skip .trim with
        | true =>
          rw [if_pos rfl, if_neg (by simp [Kept, hk, hs])]
          exact same_step h hc rfl rfl rfl rfl rfl rfl rfl hc.depth
        | false =>
          rw [if_neg (by simp), if_pos (by simp [Kept, hk, hs])]
          have := push_step h0 hc0 hdev hl .trim (place o t.sector.toNat) (up o.align t.bytes.toNat)
            (delaySince o s.last t.time.toNat / 1000) _ ((addFile o { s with last := t.time.toNat } t.device.toNat).2.size + up o.align t.bytes.toNat) rfl
          have hb : (addFile o { s with last := t.time.toNat } t.device.toNat).2.bs = s.bs := by
            obtain ⟨fs, e, cm, cn, c, he, _⟩ := addFile_spec h0 hdev hl
            have := congrArg St.bs he
            exact this
          have hio : ioOf o s.last ((deviceOf o t).getD 0) t =
              ⟨.trim, place o t.sector.toNat, up o.align t.bytes.toNat, delaySince o s.last t.time.toNat / 1000, n⟩ := by
            rw [ioOf, hk, hn, hdl, place_eq hf.align hf.sector]
            simp
          rw [hio]
          simp only [hb]
          exact ⟨this.inv, this.cnt, this.got, this.last⟩
      | false =>
        rw [if_neg (by simp)]
        cases h2 : has t 2 with
        | true =>
          have hk : kind t = .sync := by simp [kind, h13, h2]
          rw [if_pos rfl]
          unfold flush
          cases hs : o.skip .sync with
          | true =>
            rw [if_pos rfl, if_neg (by simp [Kept, hk, hs])]
            exact same_step h hc rfl rfl rfl rfl rfl rfl rfl hc.depth
          | false =>
            rw [if_neg (by simp), if_pos (by simp [Kept, hk, hs])]
            have := push_step h0 hc0 hdev hl .sync 0 0
              (delaySince o s.last t.time.toNat / 1000) s.bs (addFile o { s with last := t.time.toNat } t.device.toNat).2.size (by simp)
            have hb : (addFile o { s with last := t.time.toNat } t.device.toNat).2.bs = s.bs := by
              obtain ⟨fs, e, cm, cn, c, he, _⟩ := addFile_spec h0 hdev hl
              have := congrArg St.bs he
              exact this
            have hio : ioOf o s.last ((deviceOf o t).getD 0) t =
                ⟨.sync, 0, 0, delaySince o s.last t.time.toNat / 1000, n⟩ := by
              rw [ioOf, hk, hn, hdl]
              simp
            rw [hio]
            simp only [hb]
            exact ⟨this.inv, this.cnt, this.got, this.last⟩
        | false =>
          rw [if_neg (by simp)]
          unfold fs
          simp only [cat_eq t 1 (by decide)]
          have hk : kind t = (if has t 1 = true then Ddir.write else Ddir.read) := by simp [kind, h13, h2]
          rw [← hk]
          have hns : kind t ≠ .sync ∧ kind t ≠ .trim := by rw [hk]; split <;> simp
          have hfile := file_step h0 hc0 hdev hl
          have hfile' : Step o s (addFile o { s with last := t.time.toNat } t.device.toNat).2 [] t.time.toNat :=
            ⟨hfile.inv, hfile.cnt, hfile.got, hfile.last⟩
          cases hs : o.skip (kind t) with
          | true =>
            rw [if_pos rfl, if_neg (by simp [Kept, hs])]
            exact hfile'
          | false =>
            rw [if_neg (by simp)]
            by_cases hz : t.bytes.toNat = 0
            · have hK : ¬ Kept o t := by
                rintro ⟨_, h | h | h⟩
                · exact hns.1 h
                · exact hns.2 h
                · exact h hz
              rw [if_pos (up_zero.mpr hz), if_neg hK]
              exact hfile'
            · have hK : Kept o t := ⟨hs, .inr (.inr hz)⟩
              have hu : ¬ up o.align t.bytes.toNat = 0 := fun h => hz (up_zero.mp h)
              rw [if_neg hu, if_pos hK]
              have := push_step h0 hc0 hdev hl (kind t) (place o t.sector.toNat) (up o.align t.bytes.toNat)
                (delaySince o s.last t.time.toNat / 1000) _ ((addFile o { s with last := t.time.toNat } t.device.toNat).2.size + up o.align t.bytes.toNat) rfl
              have hb : (addFile o { s with last := t.time.toNat } t.device.toNat).2.bs = s.bs := by
                obtain ⟨fs, e, cm, cn, c, he, _⟩ := addFile_spec h0 hdev hl
                have := congrArg St.bs he
                exact this
              have hio : ioOf o s.last ((deviceOf o t).getD 0) t =
                  ⟨kind t, place o t.sector.toNat, up o.align t.bytes.toNat, delaySince o s.last t.time.toNat / 1000, n⟩ := by
                rw [ioOf, hn, hdl, place_eq hf.align hf.sector, if_neg hns.1, if_neg hns.1]
                simp
              rw [hio]
              simp only [hb]
              exact ⟨this.inv, this.cnt, this.got, this.last⟩
  · have hq : ¬ Queued t := by simp [Queued, h1]
    rw [if_pos (fun h => h1 ((low_iff t).mp h)), if_neg hq, if_neg hq]
    exact same_step h hc rfl rfl rfl rfl rfl rfl rfl hc.depth

theorem record_step {o : Opts} {s : St} {t : Trace} (h : Inv o s) (hc : Cnt s) (hf : FitsT o t) :
    Step o s (record o s t)
      (if Queued t ∧ ¬ Forbidden o t then (if Kept o t then [ioOf o s.last ((deviceOf o t).getD 0) t] else []) else [])
      (if Queued t ∧ ¬ Forbidden o t then t.time.toNat else s.last) := by
  unfold record
  rw [cat_eq t 10 (by decide)]
  cases h10 : has t 10 with
  | true =>
    have hq : ¬ Queued t := by simp [Queued, h10]
    rw [if_pos rfl]
    have := queue_step h hc hf
    rw [if_neg hq, if_neg hq] at this
    rw [if_neg (fun h => hq h.1), if_neg (fun h => hq h.1)]
    exact this
  | false =>
    rw [if_neg (by simp)]
    obtain ⟨d1, d2, d3, d4, d5, d6, d7, d8, d9⟩ := depths_spec s t
    have hd := d9 hc.depth
    have hi' : Inv o (depths s t) := h.congr d1 d2 d3 d4 d5
    have hc' : Cnt (depths s t) := hc.congr (got_congr d1 d2) d6 d7 hd
    simp only [cat_eq t 1 (by decide), cat_eq t 13 (by decide)]
    by_cases hfb : Forbidden o t
    · have hb : ((has t 1 || has t 13) && o.readOnly) = true := by
        obtain ⟨h1, h2⟩ := hfb
        rw [h1, Bool.and_true, Bool.or_eq_true]
        exact h2
      rw [if_pos hb, if_neg (fun h => h.2 hfb), if_neg (fun h => h.2 hfb)]
      rw [← d8]
      exact same_step h hc d1 d2 d3 d4 d5 d6 d7 hd
    · have hb : ¬ ((has t 1 || has t 13) && o.readOnly) = true := by
        intro hb
        rw [Bool.and_eq_true, Bool.or_eq_true] at hb
        exact hfb ⟨hb.2, hb.1⟩
      rw [if_neg hb]
      have := queue_step hi' hc' hf
      rw [d8] at this
      have hgot : got (depths s t) = got s := got_congr d1 d2
      refine ⟨this.inv, this.cnt, ?_, ?_⟩
      · rw [this.got, hgot]
        simp [hfb]
      · rw [this.last]
        simp [hfb]

theorem magic_ok {t : Trace} (h : t.magic.toNat = 0x65617407) : t.magic = 0x65617407#32 :=
  BitVec.eq_of_toNat_eq (by rw [h]; rfl)

theorem readLoop_spec {o : Opts} {b : Bool} {d : List Byte} : ∀ (l : List Rec) (n pos : Nat) (s : St),
    l.length < n → d.drop pos = fileBytes b l → (∀ r ∈ l, FitsT o r.t) →
    (∀ r ∈ l, r.t.magic.toNat = 0x65617407) → Inv o s → Cnt s →
    ∃ s', readLoop o b d n pos s = some (false, s') ∧ Inv o s' ∧ Cnt s' ∧
      got s' = got s ++ expected o s.last (l.map (·.t))
  | [], n + 1, pos, s, _, hd, _, _, hi, hc => by
    rw [readLoop]
    simp only [hd, fileBytes, List.take_nil, List.length_nil]
    rw [if_pos (by decide)]
    exact ⟨s, rfl, hi, hc, by simp [expected]⟩
  | r :: l, n + 1, pos, s, hn, hd, hf, hm, hi, hc => by
    have hgot : (d.drop pos).take 48 = recBytes b r.t := by
      rw [hd]
      simp [fileBytes]
    have hrest : d.drop (pos + 48 + r.t.pduLen.toNat) = fileBytes b l := by
      rw [← List.drop_drop, ← List.drop_drop, hd, r.ok]
      simp [fileBytes]
    rw [readLoop]
    simp only [hgot, Fio.Blkmerge.recBytes_length, Nat.lt_irrefl, if_false, Fio.Blkmerge.decoded]
    have hmg := magic_ok (hm r (by simp))
    rw [hmg, if_neg (by decide), if_neg (by decide)]
    have hst := record_step hi hc (hf r (by simp))
    obtain ⟨s', h1, h2, h3, h4⟩ := readLoop_spec l n (pos + 48 + r.t.pduLen.toNat) (record o s r.t)
      (by simpa using hn) hrest (fun x hx => hf x (by simp [hx])) (fun x hx => hm x (by simp [hx])) hst.inv hst.cnt
    refine ⟨s', h1, h2, h3, ?_⟩
    rw [h4, hst.got, hst.last, List.map_cons, expected]
    split <;> simp

end Fio.Blkreplay
