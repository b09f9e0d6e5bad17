import Verif.Du.Model
/-!
# C94: disk utilisation
-/

namespace Fio.Du

namespace Spec

/-- What the kernel counts (without end), and how it prints it: the counters of times with 32 bits or whole. -/
structure Kernel where
  rios : Nat
  rmerges : Nat
  rsectors : Nat
  rticks : Nat
  wios : Nat
  wmerges : Nat
  wsectors : Nat
  wticks : Nat
  inFlight : Nat
  ioTicks : Nat
  inQueue : Nat

/-- `b`: the size of the numbers for times. -/
def Kernel.line (k : Kernel) (b : Nat) (more : List Nat) : List Nat :=
  [k.rios % 2 ^ 64, k.rmerges % 2 ^ 64, k.rsectors % 2 ^ 64, k.rticks % b, k.wios % 2 ^ 64, k.wmerges % 2 ^ 64, k.wsectors % 2 ^ 64, k.wticks % b,
    k.inFlight, k.ioTicks % b, k.inQueue % b] ++ more

def Kernel.get (k : Kernel) : F → Nat
  | .rios => k.rios | .rmerges => k.rmerges | .rsectors => k.rsectors | .rticks => k.rticks
  | .wios => k.wios | .wmerges => k.wmerges | .wsectors => k.wsectors | .wticks => k.wticks
  | .ioTicks => k.ioTicks | .inQueue => k.inQueue

/-- Between two looks every counter grows by less than 2^32. -/
def Kernel.Near (k k' : Kernel) : Prop := ∀ f, k.get f ≤ k'.get f ∧ k'.get f < k.get f + 2 ^ 32

end Spec

open Spec

theorem diff_wide (B n o : Nat) (h : o ≤ n) (hB : n < o + B) : (n % B + B - o % B) % B = n - o := by
  have h1 := Nat.div_add_mod n B
  have h2 := Nat.div_add_mod o B
  have hpos : 0 < B := by omega
  have m1 := Nat.mod_lt n hpos
  have m2 := Nat.mod_lt o hpos
  have hq : n / B = o / B ∨ n / B = o / B + 1 := by
    have a1 : o / B ≤ n / B := Nat.div_le_div_right h
    have a2 : n / B ≤ o / B + 1 := by
      rw [← Nat.add_div_right _ hpos]
      exact Nat.div_le_div_right (by omega)
    omega
  rcases hq with hq | hq
  · rw [hq] at h1
    have : n % B + B - o % B = (n - o) + B := by omega
    rw [this, Nat.add_mod_right, Nat.mod_eq_of_lt (by omega)]
  · rw [hq, Nat.mul_add] at h1
    have : n % B + B - o % B = n - o := by omega
    rw [this, Nat.mod_eq_of_lt (by omega)]

theorem diff32_eq (B n o : Nat) (hB : B = 2 ^ 32 ∨ B = 2 ^ 64) (h : o ≤ n) (h32 : n < o + 2 ^ 32) (hw : B = 2 ^ 64 → n < 2 ^ 64) :
    diff32 (n % B) (o % B) = n - o := by
  unfold diff32
  rcases hB with hB | hB
  · subst hB
    split <;> omega
  · have := hw hB
    subst hB
    rw [Nat.mod_eq_of_lt (show n < 2 ^ 64 by omega), Nat.mod_eq_of_lt (show o < 2 ^ 64 by omega)]
    rw [if_pos (Or.inl h)]
    omega

theorem parse_line (k : Kernel) (b : Nat) (more : List Nat) : ∃ v, parse (k.line b more) = some v ∧
    ∀ f, v f = match f with
      | .rticks | .wticks | .ioTicks | .inQueue => k.get f % b
      | _ => k.get f % 2 ^ 64 := by
  refine ⟨_, rfl, ?_⟩
  intro f
  cases f <;> rfl

theorem delta_eq (k k' : Kernel) (b : Nat) (hb : b = 2 ^ 32 ∨ b = 2 ^ 64) (hn : k.Near k') (hw : b = 2 ^ 64 → ∀ f, k'.get f < 2 ^ 64)
    (v v' : F → Nat) (hv : ∀ f, v f = match f with | .rticks | .wticks | .ioTicks | .inQueue => k.get f % b | _ => k.get f % 2 ^ 64)
    (hv' : ∀ f, v' f = match f with | .rticks | .wticks | .ioTicks | .inQueue => k'.get f % b | _ => k'.get f % 2 ^ 64) (f : F) :
    delta f (v' f) (v f) = k'.get f - k.get f := by
  have h1 := hn f
  have h2 := diff32_eq b (k'.get f) (k.get f) hb h1.1 h1.2 (fun e => hw e f)
  have h3 := diff_wide (2 ^ 64) (k'.get f) (k.get f) h1.1 (by omega)
  rw [hv, hv']
  cases f <;> first | exact h2 | exact h3

/-- A look that is done: a user, a line that can be read, and what the kernel had counted. -/
def look (b : Nat) (x : Nat × Kernel × List Nat × Nat) : Look := ⟨x.1 + 1, some (x.2.1.line b x.2.2.1), x.2.2.2⟩

/-- Looks one after the other, none too late. -/
def Chain : Kernel → List (Nat × Kernel × List Nat × Nat) → Prop
  | _, [] => True
  | k, x :: xs => k.Near x.2.1 ∧ Chain x.2.1 xs

theorem polls_eq (b : Nat) (hb : b = 2 ^ 32 ∨ b = 2 ^ 64) : ∀ (xs : List (Nat × Kernel × List Nat × Nat)) (k : Kernel) (d : Disk) (k0 : Kernel), Chain k xs →
    (∀ f, d.last f = match f with | .rticks | .wticks | .ioTicks | .inQueue => k.get f % b | _ => k.get f % 2 ^ 64) →
    (b = 2 ^ 64 → ∀ x ∈ xs, ∀ f, x.2.1.get f < 2 ^ 64) →
    (∀ f, k0.get f ≤ k.get f ∧ d.acc f = (k.get f - k0.get f) % 2 ^ 64) →
    ∀ f, (polls d (xs.map (look b))).acc f = (((xs.getLast?.map (·.2.1)).getD k).get f - k0.get f) % 2 ^ 64 ∧
      k0.get f ≤ ((xs.getLast?.map (·.2.1)).getD k).get f := by
  intro xs
  induction xs with
  | nil => intro k d k0 _ _ _ ha f; exact ⟨(ha f).2, (ha f).1⟩
  | cons x xs ih =>
    intro k d k0 hc hl hw ha f
    obtain ⟨v, hp, hv⟩ := parse_line x.2.1 b x.2.2.1
    have hd : polls d ((x :: xs).map (look b)) = polls (poll d (x.1 + 1) (some (x.2.1.line b x.2.2.1)) x.2.2.2) (xs.map (look b)) := rfl
    have hpl : poll d (x.1 + 1) (some (x.2.1.line b x.2.2.1)) x.2.2.2 =
        ⟨fun f => (d.acc f + delta f (v f) (d.last f)) % 2 ^ 64, d.msec + (x.2.2.2 - d.time) / 1000, v, x.2.2.2⟩ := by
      unfold poll
      rw [if_neg (by omega), Option.bind_some, hp]
    have hdel := delta_eq k x.2.1 b hb hc.1 (fun e => hw e x List.mem_cons_self) d.last v hl hv
    rw [hd, hpl]
    have := ih x.2.1 ⟨fun f => (d.acc f + delta f (v f) (d.last f)) % 2 ^ 64, d.msec + (x.2.2.2 - d.time) / 1000, v, x.2.2.2⟩ k0 hc.2 hv
      (fun e y hy => hw e y (List.mem_cons_of_mem _ hy)) (by
        intro g
        have h1 := ha g
        have h2 := hc.1 g
        refine ⟨by omega, ?_⟩
        simp only
        rw [hdel g, h1.2]
        omega) f
    have hlast : ((x :: xs).getLast?.map (·.2.1)).getD k = (xs.getLast?.map (·.2.1)).getD x.2.1 := by
      cases xs with
      | nil => rfl
      | cons y ys => rw [List.getLast?_cons_cons]; simp [List.getLast?_cons]
    rw [hlast]
    exact this

/-- **C94** (counts, partial): the numbers reported for a disk are what the kernel counted from when the disk was added to the last look, whether
the kernel prints times with 32 or 64 bits.  Missing: what comes after the last look with a user (`C94_short_counterexample`), a disk whose first
reading failed, and counters that grow by 2^32 between two looks. -/
theorem C94_counts_partial (b : Nat) (hb : b = 2 ^ 32 ∨ b = 2 ^ 64) (k0 : Kernel) (more : List Nat) (t0 : Nat) (xs : List (Nat × Kernel × List Nat × Nat))
    (hc : Chain k0 xs) (hw : ∀ x ∈ xs, ∀ f, x.2.1.get f - k0.get f < 2 ^ 64) (hw' : b = 2 ^ 64 → ∀ x ∈ xs, ∀ f, x.2.1.get f < 2 ^ 64) (f : F) :
    (polls (new (some (k0.line b more)) t0) (xs.map (look b))).acc f = ((xs.getLast?.map (·.2.1)).getD k0).get f - k0.get f := by
  obtain ⟨v, hp, hv⟩ := parse_line k0 b more
  have hnew : new (some (k0.line b more)) t0 = ⟨fun _ => 0, 0, v, t0⟩ := by
    unfold new
    rw [Option.bind_some, hp]
    rfl
  rw [hnew]
  have := (polls_eq b hb xs k0 ⟨fun _ => 0, 0, v, t0⟩ k0 hc hv hw' (fun g => ⟨Nat.le_refl _, by simp⟩) f).1
  rw [this]
  apply Nat.mod_eq_of_lt
  cases hx : xs.getLast? with
  | none => simp
  | some x => exact hw x (List.mem_of_getLast? hx) f

/-- **C94** (looks that fail): a look without a user, or at a line that cannot be read, changes nothing. -/
theorem C94_skip (d : Disk) (users : Nat) (line : Option (List Nat)) (now : Nat) (h : users = 0 ∨ line.bind parse = none) : poll d users line now = d := by
  unfold poll
  by_cases hu : users = 0
  · rw [if_pos hu]
  · rw [if_neg hu, h.resolve_left hu]

/-- Times of the looks, none before the last. -/
def Times : Nat → List (Nat × Kernel × List Nat × Nat) → Prop
  | _, [] => True
  | t, x :: xs => t ≤ x.2.2.2 ∧ Times x.2.2.2 xs

theorem far1' (A M Q t T Pt : Nat) (h : t ≤ T) (i2 : T ≤ Pt) (hq : Q ≤ T - t) (i3 : A ≤ M + Q + (Pt - T)) : A ≤ M + (Pt - t) := by omega

theorem far2' (A M Q c t T Pt n : Nat) (h : t ≤ T) (i2 : T ≤ Pt) (hq : T - t < Q + (c + 1)) (i4 : M + Q + (Pt - T) ≤ A + n) : M + (Pt - t) ≤ A + (n + c) := by omega

theorem far1 (m t T P Pt : Nat) (h : t ≤ T) (i2 : T ≤ Pt) (i3 : P * 1000 ≤ (m + (T - t) / 1000) * 1000 + (Pt - T)) :
    P * 1000 ≤ m * 1000 + (Pt - t) :=
  far1' (P * 1000) (m * 1000) ((T - t) / 1000 * 1000) t T Pt h i2 (Nat.div_mul_le_self _ _) (by rw [← Nat.add_mul]; exact i3)

theorem far2 (m t T P Pt n : Nat) (h : t ≤ T) (i2 : T ≤ Pt) (i4 : (m + (T - t) / 1000) * 1000 + (Pt - T) ≤ P * 1000 + 999 * n) :
    m * 1000 + (Pt - t) ≤ P * 1000 + 999 * (n + 1) :=
  far2' (P * 1000) (m * 1000) ((T - t) / 1000 * 1000) 999 t T Pt (999 * n) h i2 (Nat.lt_div_mul_add (by decide)) (by rw [← Nat.add_mul]; exact i4)

/-- **C94** (time, partial): the milliseconds reported are not more than those from the adding to the last look, and less than one for each look
is lost.  Missing: those lost. -/
theorem C94_time_partial (b : Nat) (xs : List (Nat × Kernel × List Nat × Nat)) : ∀ (d : Disk), Times d.time xs →
    (polls d (xs.map (look b))).time = (xs.getLast?.map (·.2.2.2)).getD d.time ∧ d.time ≤ (polls d (xs.map (look b))).time ∧
    (polls d (xs.map (look b))).msec * 1000 ≤ d.msec * 1000 + ((polls d (xs.map (look b))).time - d.time) ∧
    d.msec * 1000 + ((polls d (xs.map (look b))).time - d.time) ≤ (polls d (xs.map (look b))).msec * 1000 + 999 * xs.length := by
  induction xs with
  | nil => intro d _; simp [polls]
  | cons x xs ih =>
    intro d ht
    obtain ⟨v, hp, hv⟩ := parse_line x.2.1 b x.2.2.1
    have hpl : poll d (x.1 + 1) (some (x.2.1.line b x.2.2.1)) x.2.2.2 =
        ⟨fun f => (d.acc f + delta f (v f) (d.last f)) % 2 ^ 64, d.msec + (x.2.2.2 - d.time) / 1000, v, x.2.2.2⟩ := by
      unfold poll
      rw [if_neg (by omega), Option.bind_some, hp]
    have hd : polls d ((x :: xs).map (look b)) = polls (poll d (x.1 + 1) (some (x.2.1.line b x.2.2.1)) x.2.2.2) (xs.map (look b)) := rfl
    rw [hd, hpl]
    obtain ⟨i1, i2, i3, i4⟩ := ih ⟨fun f => (d.acc f + delta f (v f) (d.last f)) % 2 ^ 64, d.msec + (x.2.2.2 - d.time) / 1000, v, x.2.2.2⟩ ht.2
    have h1 := ht.1
    rw [List.length_cons]
    refine ⟨?_, Nat.le_trans h1 i2, far1 _ _ _ _ _ h1 i2 i3, far2 _ _ _ _ _ _ h1 i2 i4⟩
    rw [i1]
    cases xs with
    | nil => rfl
    | cons y ys => rw [List.getLast?_cons_cons]; simp [List.getLast?_cons]

/-! ## Users -/

/-- How often a disk was opened and not closed. -/
def opens (d : Nat) (es : List (Nat × Bool)) : Int := (es.map fun e => if e.1 = d then (if e.2 then 1 else -1) else 0).sum

/-- **C94** (users, partial): opening and closing files counts the users of their disks and changes nothing else.  Missing: files on a disk that is
a part of another one fio knows. -/
theorem C94_users_partial (s : St) : ∀ es : List (Nat × Bool), (∀ e ∈ es, s.hook e.1 = none) →
    ∃ s', mods s es = some s' ∧ (∀ d, s'.users d = s.users d + opens d es) ∧ s'.hook = s.hook ∧ s'.slaves = s.slaves ∧ s'.known = s.known := by
  intro es
  induction es generalizing s with
  | nil => intro _; exact ⟨s, rfl, by simp [opens], rfl, rfl, rfl⟩
  | cons e es ih =>
    intro h
    have h0 := h e List.mem_cons_self
    obtain ⟨s', e1, e2, e3, e4, e5⟩ := ih { s with users := fun j => if j = e.1 then s.users e.1 + (if e.2 then 1 else -1) else s.users j }
      (fun x hx => h x (List.mem_cons_of_mem _ hx))
    refine ⟨s', ?_, ?_, e3, e4, e5⟩
    · rw [← e1]
      show (mod s e.1 _).bind _ = _
      unfold mod
      rw [h0]
      rfl
    · intro d
      rw [e2 d]
      simp only [opens, List.map_cons, List.sum_cons]
      by_cases hd : d = e.1
      · subst hd
        simp only [if_true]
        omega
      · simp only [if_neg hd, if_neg (Ne.symm hd)]
        omega

/-- Opening a file on a disk that is a part of another changes memory that is no disk. -/
theorem C94_part_counterexample (s : St) (d m : Nat) (v : Int) (h : s.hook d = some m) : mod s d v = none := by
  unfold mod
  rw [h]

/-- **C94** (parts, partial): a disk not known yet, made of disks not known yet that have no parts, gets exactly these as its parts, in order, and
each of them is used once.  Missing: parts that are known already (`C94_known_part_counterexample`), and parts with parts. -/
theorem C94_parts_partial (sub : Nat → List Nat) (n d : Nat) (s : St) (hd : d ∉ s.known) (hs : s.slaves d = []) (hn : (sub d).Nodup)
    (hk : ∀ e ∈ sub d, e ∉ s.known ∧ e ≠ d ∧ sub e = [] ∧ s.users e = 0) :
    (add sub (n + 2) s d).slaves d = sub d ∧ (∀ e ∈ sub d, (add sub (n + 2) s d).users e = 1 ∧ (add sub (n + 2) s d).hook e = some d) ∧
      (add sub (n + 2) s d).known = s.known ++ d :: sub d ∧ (add sub (n + 2) s d).users d = s.users d ∧
      (add sub (n + 2) s d).hook d = s.hook d := by
  have key : ∀ (l done : List Nat) (st : St), sub d = done ++ l → st.known = s.known ++ d :: done → st.slaves d = done →
      (∀ e ∈ done, st.users e = 1 ∧ st.hook e = some d) → (∀ e ∈ l, st.users e = 0) → st.users d = s.users d → st.hook d = s.hook d →
      let r := l.foldl (fun s e =>
        if e ∈ s.known then s
        else
          let s := add sub (n + 1) s e
          { s with
            users := fun j => if j = e then s.users e + 1 else s.users j
            slaves := fun j => if j = d then s.slaves d ++ [e] else s.slaves j
            hook := fun j => if j = e then some d else s.hook j }) st
      r.slaves d = sub d ∧ (∀ e ∈ sub d, r.users e = 1 ∧ r.hook e = some d) ∧ r.known = s.known ++ d :: sub d ∧ r.users d = s.users d ∧ r.hook d = s.hook d := by
    intro l
    induction l with
    | nil =>
      intro done st hsub h1 h2 h3 h4 h5 h6
      have e : done = sub d := by simp [hsub]
      simp only [List.foldl_nil]
      rw [← e]
      exact ⟨h2, h3, h1, h5, h6⟩
    | cons e l ih =>
      intro done st hsub h1 h2 h3 h4 h5 h6
      have hmem : e ∈ sub d := by rw [hsub]; simp
      obtain ⟨k1, k2, k3, k4⟩ := hk e hmem
      have hnd : e ∉ done ∧ e ∉ l := by
        rw [hsub] at hn
        have := List.nodup_append.1 hn
        refine ⟨fun h => this.2.2 e h e List.mem_cons_self rfl, (List.nodup_cons.1 this.2.1).1⟩
      have hnk : e ∉ st.known := by
        rw [h1]
        simp only [List.mem_append, List.mem_cons]
        rintro (h | h | h)
        · exact k1 h
        · exact k2 h
        · exact hnd.1 h
      have hadd : add sub (n + 1) st e = { st with known := st.known ++ [e] } := by
        unfold add
        rw [if_neg hnk, k3]
        rfl
      simp only [List.foldl_cons]
      rw [if_neg hnk, hadd]
      apply ih (done ++ [e])
      · rw [hsub]; simp
      · simp [h1]
      · simp [h2]
      · intro x hx
        rcases List.mem_append.1 hx with hx | hx
        · have hne : x ≠ e := fun h => hnd.1 (h ▸ hx)
          simp only [if_neg hne]
          exact h3 x hx
        · have hxe : x = e := by simpa using hx
          subst hxe
          simp only [if_true]
          exact ⟨by rw [h4 x List.mem_cons_self]; rfl, trivial⟩
      · intro x hx
        have hne : x ≠ e := fun h => hnd.2 (h ▸ hx)
        simp only [if_neg hne]
        exact h4 x (List.mem_cons_of_mem _ hx)
      · simp only [if_neg (Ne.symm k2)]
        exact h5
      · simp only [if_neg (Ne.symm k2)]
        exact h6
  have := key (sub d) [] { s with known := s.known ++ [d] } (by simp) (by simp) hs (by simp) (fun e he => (hk e he).2.2.2) rfl rfl
  unfold add
  rw [if_neg hd]
  exact this

/-- **C94** (known): adding a disk that is known changes nothing. -/
theorem C94_known (sub : Nat → List Nat) (n d : Nat) (s : St) (h : d ∈ s.known) : add sub n s d = s := by
  unfold add
  cases n with
  | zero => rfl
  | succ n => simp only; rw [if_pos h]

/-! ## Software RAID -/

theorem aggregate_eq (disks : Nat → Disk) (l : List Nat) : ∀ (agg : F → Nat) (c : Nat) (f : F), f ≠ .ioTicks → agg f < 2 ^ 64 →
    (aggregate disks agg c l).1 f = (agg f + (l.map fun e => (disks e).acc f).sum) % 2 ^ 64 ∧ (aggregate disks agg c l).2 = c + l.length := by
  induction l with
  | nil => intro agg c f _ h; simp [aggregate, Nat.mod_eq_of_lt h]
  | cons e l ih =>
    intro agg c f hf h
    have := ih (fun f => if f = .ioTicks then agg f else (agg f + (disks e).acc f) % 2 ^ 64) (c + 1) f hf
      (by simp only [if_neg hf]; exact Nat.mod_lt _ (by decide))
    have e1 : aggregate disks agg c (e :: l) = aggregate disks (fun f => if f = .ioTicks then agg f else (agg f + (disks e).acc f) % 2 ^ 64) (c + 1) l := rfl
    rw [e1, this.1, this.2]
    simp only [if_neg hf, List.map_cons, List.sum_cons, List.length_cons]
    exact ⟨by omega, by omega⟩

/-- **C94** (RAID, partial): the first time they are printed the numbers of a disk made of others are the sums of theirs.  Missing: the time the
disks were busy (never added), and every further printing (`C94_printed_again_counterexample`). -/
theorem C94_raid_partial (disks : Nat → Disk) (slaves : List Nat) (f : F) (hf : f ≠ .ioTicks) (hw : (slaves.map fun e => (disks e).acc f).sum < 2 ^ 64) :
    (prints disks slaves 1).1 f = (slaves.map fun e => (disks e).acc f).sum ∧ (prints disks slaves 1).2 = slaves.length := by
  have := aggregate_eq disks slaves (fun _ => 0) 0 f hf (by decide)
  simp only [prints]
  rw [this.1, this.2]
  refine ⟨?_, by omega⟩
  rw [Nat.zero_add, Nat.mod_eq_of_lt hw]

/-- After `n` printings they are `n` times as large. -/
theorem C94_printed_again_counterexample (disks : Nat → Disk) (slaves : List Nat) (f : F) (hf : f ≠ .ioTicks) (n : Nat)
    (hw : n * (slaves.map fun e => (disks e).acc f).sum < 2 ^ 64) :
    (prints disks slaves n).1 f = n * (slaves.map fun e => (disks e).acc f).sum ∧ (prints disks slaves n).2 = n * slaves.length := by
  induction n with
  | zero => simp [prints]
  | succ n ih =>
    rw [Nat.add_mul, Nat.one_mul] at hw
    obtain ⟨i1, i2⟩ := ih (by omega)
    simp only [prints]
    have := aggregate_eq disks slaves (prints disks slaves n).1 (prints disks slaves n).2 f hf (by rw [i1]; omega)
    rw [this.1, this.2, i1, i2, Nat.mod_eq_of_lt hw, Nat.add_mul, Nat.add_mul, Nat.one_mul, Nat.one_mul]
    exact ⟨rfl, rfl⟩

/-- The time the disks were busy stays zero. -/
theorem C94_busy_counterexample (disks : Nat → Disk) (slaves : List Nat) (n : Nat) : (prints disks slaves n).1 .ioTicks = 0 := by
  have h : ∀ (l : List Nat) (a : (F → Nat)) (c : Nat), (aggregate disks a c l).1 .ioTicks = a .ioTicks := by
    intro l
    induction l with
    | nil => intros; rfl
    | cons e l ih =>
      intro a c
      exact (ih _ _).trans rfl
  induction n with
  | zero => rfl
  | succ n ih => simp only [prints]; rw [h, ih]

end Fio.Du
