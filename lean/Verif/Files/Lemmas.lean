import Verif.Files.Model
import Verif.Files.Spec

namespace Fio.Files

theorem cnt_congr {n : Nat} {p q : Nat → Bool} (h : ∀ i, i < n → p i = q i) : cnt n p = cnt n q := by
  induction n with
  | zero => rfl
  | succ n ih =>
    simp only [cnt]
    rw [ih (fun i hi => h i (by omega)), h n (by omega)]

theorem cnt_set {n : Nat} {p q : Nat → Bool} {i : Nat} (hi : i < n) (h : ∀ j, j ≠ i → p j = q j) :
    cnt n p + (if q i then 1 else 0) = cnt n q + (if p i then 1 else 0) := by
  induction n with
  | zero => omega
  | succ n ih =>
    simp only [cnt]
    by_cases hin : i = n
    · subst hin
      rw [cnt_congr (fun j hj => h j (by omega))]
      omega
    · have := ih (by omega)
      rw [h n (by omega)]
      omega

theorem cnt_le (n : Nat) (p : Nat → Bool) : cnt n p ≤ n := by
  induction n with
  | zero => simp [cnt]
  | succ n ih => simp only [cnt]; split <;> omega

theorem cnt_pos {n : Nat} {p : Nat → Bool} {i : Nat} (hi : i < n) (h : p i) : 0 < cnt n p := by
  induction n with
  | zero => omega
  | succ n ih =>
    simp only [cnt]
    by_cases hin : i = n
    · subst hin; simp [h]
    · have := ih (by omega); omega

theorem cnt_ex {n : Nat} {p : Nat → Bool} (h : 0 < cnt n p) : ∃ i, i < n ∧ p i := by
  induction n with
  | zero => simp [cnt] at h
  | succ n ih =>
    simp only [cnt] at h
    by_cases hp : p n
    · exact ⟨n, by omega, hp⟩
    · simp [hp] at h
      obtain ⟨i, hi, hpi⟩ := ih h
      exact ⟨i, by omega, hpi⟩

theorem cnt_all {n : Nat} {p : Nat → Bool} (h : cnt n p = n) : ∀ i, i < n → p i := by
  induction n with
  | zero => intro i hi; omega
  | succ n ih =>
    simp only [cnt] at h
    have hle := cnt_le n p
    by_cases hp : p n
    · simp [hp] at h
      intro i hi
      by_cases hin : i = n
      · subst hin; exact hp
      · exact ih h i (by omega)
    · simp [hp] at h; omega

/-- What holds of a file with h users. -/
def FInv (f : File) (h : Nat) : Prop :=
  f.fd = f.opn ∧
  (f.opn = true → f.refs = h + (if f.closing then 0 else 1) ∧ 0 < f.refs) ∧
  (f.opn = false → f.closing = false ∧ h = 0 ∧ f.refs = 0)

/-- What holds of a job, `h i` being the number of users of file i. -/
structure Inv (c : Cfg) (s : St) (h : Nat → Nat) : Prop where
  file : ∀ i, FInv (s.files i) (h i)
  out : ∀ i, c.nr ≤ i → (s.files i).opn = false
  cnt : s.nrOpen = cnt c.nr (fun i => (s.files i).opn)
  next : s.next < c.nr

/-- A change in one place. -/
def upd (h : Nat → Nat) (i n : Nat) : Nat → Nat := fun j => if j = i then n else h j

/-- A change of a file that is open before and after. -/
theorem inv_keep {c : Cfg} {s : St} {h : Nat → Nat} (hi : Inv c s h) {i n : Nat} {f : File}
    (hf : FInv f n) (ho : f.opn = (s.files i).opn) : Inv c (setFile s i f) (upd h i n) := by
  refine ⟨?_, ?_, ?_, hi.next⟩
  · intro j
    by_cases hj : j = i
    · subst hj; simpa [setFile, upd] using hf
    · simpa [setFile, upd, hj] using hi.file j
  · intro j hj
    by_cases hji : j = i
    · subst hji; simpa [setFile] using ho ▸ hi.out j hj
    · simpa [setFile, hji] using hi.out j hj
  · show s.nrOpen = _
    rw [hi.cnt]
    apply cnt_congr
    intro j _
    by_cases hji : j = i
    · subst hji; simp [setFile, ho]
    · simp [setFile, hji]

theorem upd_self (h : Nat → Nat) (i : Nat) : upd h i (h i) = h := by
  funext j; simp only [upd]; split
  · next e => rw [e]
  · rfl

theorem upd_upd (h : Nat → Nat) (i m n : Nat) : upd (upd h i m) i n = upd h i n := by
  funext j; simp only [upd]; split <;> rfl

theorem get_inv {c : Cfg} {s : St} {h : Nat → Nat} (hi : Inv c s h) {i : Nat} (ho : (s.files i).opn = true) :
    ∃ t, getFile s i = some t ∧ Inv c t (upd h i (h i + 1)) ∧ t = setFile s i { s.files i with refs := (s.files i).refs + 1 } := by
  refine ⟨_, by simp [getFile, ho], ?_, rfl⟩
  obtain ⟨h1, h2, h3⟩ := hi.file i
  refine inv_keep hi ⟨h1, ?_, ?_⟩ rfl
  · intro _
    have := h2 ho
    simp only
    omega
  · intro hn
    simp [ho] at hn

/-- A user of file i leaves. -/
theorem put_inv {c : Cfg} {s : St} {h : Nat → Nat} (hi : Inv c s h) {i : Nat} (hh : 0 < h i) :
    ∃ t, putFile s i = some t ∧ Inv c t (upd h i (h i - 1)) := by
  obtain ⟨h1, h2, h3⟩ := hi.file i
  cases ho : (s.files i).opn with
  | false => have := h3 ho; omega
  | true =>
    obtain ⟨h4, h5⟩ := h2 ho
    by_cases hr : (s.files i).refs - 1 = 0
    · have hlt : i < c.nr := by
        apply Decidable.byContradiction; intro hn
        have := hi.out i (by omega); simp [ho] at this
      have hc := cnt_pos (p := fun i => (s.files i).opn) hlt ho
      rw [← hi.cnt] at hc
      refine ⟨setFile { s with nrOpen := s.nrOpen - 1 } i
        { s.files i with refs := 0, fd := false, closing := false, opn := false }, ?_, ?_⟩
      · unfold putFile
        simp only [ho, Bool.not_true]
        rw [if_neg (by simp), if_neg (by omega), if_neg (by omega), if_neg (by omega)]
      · refine ⟨?_, ?_, ?_, hi.next⟩
        · intro j
          by_cases hj : j = i
          · subst hj
            simp only [setFile, upd]
            refine ⟨by simp, by simp, ?_⟩
            intro _
            simp only [if_pos]
            refine ⟨trivial, ?_, trivial⟩
            split at h4 <;> omega
          · simpa [setFile, upd, hj] using hi.file j
        · intro j hj
          by_cases hji : j = i
          · subst hji; simp [setFile]
          · simpa [setFile, hji] using hi.out j hj
        · show s.nrOpen - 1 = _
          have := cnt_set (p := fun j => (s.files j).opn)
            (q := fun j => (if j = i then { s.files i with refs := 0, fd := false, closing := false, opn := false }
              else s.files j : File).opn) hlt (by intro j hj; simp [hj])
          simp only [if_pos, ho] at this
          simp only [setFile]
          rw [hi.cnt]
          simp at this
          omega
    · refine ⟨setFile s i { s.files i with refs := (s.files i).refs - 1 }, ?_, ?_⟩
      · unfold putFile
        simp only [ho, Bool.not_true]
        rw [if_neg (by simp), if_neg (by omega), if_pos (by omega)]
      · refine inv_keep hi ⟨h1, ?_, ?_⟩ rfl
        · intro _
          simp only
          split at h4 <;> simp_all <;> omega
        · intro hn; simp [ho] at hn

/-- An open file that is not being closed is closed, or will be. -/
theorem close_inv {c : Cfg} {s : St} {h : Nat → Nat} (hi : Inv c s h) {i : Nat} (ho : (s.files i).opn = true)
    (hc : (s.files i).closing = false) :
    ∃ t, closeFile s i = some t ∧ Inv c t h := by
  have hf := hi.file i
  obtain ⟨h1, h2, h3⟩ := hf
  have h4 := h2 ho
  simp only [hc] at h4
  have h5 : Inv c (setFile s i { s.files i with closing := true }) (upd h i (h i + 1)) := by
    refine inv_keep hi ⟨h1, ?_, ?_⟩ rfl
    · intro _; simp only [if_true]; simp at h4; omega
    · intro hn; simp [ho] at hn
  obtain ⟨t, h6, h7⟩ := put_inv h5 (i := i) (by simp [upd])
  refine ⟨t, h6, ?_⟩
  rw [upd_upd] at h7
  simpa [upd, upd_self] using h7

theorem open_inv {c : Cfg} {s : St} {h : Nat → Nat} (hi : Inv c s h) {i : Nat} (hlt : i < c.nr)
    (ho : (s.files i).opn = false) {o : Outcome} (hno : o ≠ .later) :
    (o = .noOpen ∧ openFile s i o = some (true, s)) ∨
    (o = .ok ∧ ∃ t, openFile s i o = some (false, t) ∧ Inv c t h ∧
      t = setFile { s with nrOpen := s.nrOpen + 1 } i
        { s.files i with fd := true, opn := true, closing := false, refs := 1 }) := by
  obtain ⟨h1, h2, h3⟩ := hi.file i
  obtain ⟨h4, h5, h6⟩ := h3 ho
  rw [ho] at h1
  cases o with
  | later => exact absurd rfl hno
  | noOpen => left; simp [openFile, h4, ho, h1]
  | ok =>
    right
    refine ⟨rfl, _, ?_, ?_, rfl⟩
    · simp [openFile, h4, ho, h1, getFile, setFile, h6]
      funext j
      split <;> rfl
    · refine ⟨?_, ?_, ?_, hi.next⟩
      · intro j
        by_cases hj : j = i
        · subst hj; simp [setFile, FInv, h5]
        · simpa [setFile, hj] using hi.file j
      · intro j hj
        by_cases hji : j = i
        · subst hji; omega
        · simpa [setFile, hji] using hi.out j hj
      · show s.nrOpen + 1 = _
        have := cnt_set (p := fun j => (s.files j).opn)
          (q := fun j => (if j = i then { s.files i with fd := true, opn := true, closing := false, refs := 1 }
            else s.files j : File).opn) hlt (by intro j hj; simp [hj])
        simp only [if_pos, ho] at this
        simp only [setFile]
        rw [hi.cnt]
        simp at this
        omega

/-- Nothing but the state of file i and the number of open files differs. -/
structure Frame (s t : St) (i : Nat) : Prop where
  next : t.next = s.next
  nrDone : t.nrDone = s.nrDone
  svc : t.svc = s.svc
  left : t.left = s.left
  holds : t.holds = s.holds
  other : ∀ j, j ≠ i → t.files j = s.files j
  done : (t.files i).done = (s.files i).done

theorem Frame.refl (s : St) (i : Nat) : Frame s s i := ⟨rfl, rfl, rfl, rfl, rfl, fun _ _ => rfl, rfl⟩

theorem Frame.trans {s t u : St} {i : Nat} (a : Frame s t i) (b : Frame t u i) : Frame s u i :=
  ⟨b.next.trans a.next, b.nrDone.trans a.nrDone, b.svc.trans a.svc, b.left.trans a.left, b.holds.trans a.holds,
    fun j hj => (b.other j hj).trans (a.other j hj), b.done.trans a.done⟩

theorem Frame.alldone {s t : St} {i : Nat} (a : Frame s t i) (j : Nat) : (t.files j).done = (s.files j).done := by
  by_cases h : j = i
  · rw [h]; exact a.done
  · rw [a.other j h]

theorem frame_set {s : St} {i : Nat} {f : File} (h : f.done = (s.files i).done) (n : Nat) :
    Frame s (setFile { s with nrOpen := n } i f) i :=
  ⟨rfl, rfl, rfl, rfl, rfl, fun j hj => by simp [setFile, hj], by simp [setFile, h]⟩

theorem frame_set' {s : St} {i : Nat} {f : File} (h : f.done = (s.files i).done) :
    Frame s (setFile s i f) i := frame_set h s.nrOpen

theorem get_frame {s t : St} {i : Nat} (h : getFile s i = some t) : Frame s t i := by
  unfold getFile at h
  simp only at h
  split at h
  · injection h with h; subst h; exact frame_set' (by rfl)
  · cases h

theorem put_frame {s t : St} {i : Nat} (h : putFile s i = some t) : Frame s t i := by
  unfold putFile at h
  simp only at h
  split at h
  · split at h
    · cases h
    · injection h with h; subst h; exact Frame.refl _ _
  · split at h
    · cases h
    · split at h
      · injection h with h; subst h; exact frame_set' (by rfl)
      · split at h
        · cases h
        · injection h with h; subst h; exact frame_set (by rfl) _

theorem close_frame {s t : St} {i : Nat} (h : closeFile s i = some t) : Frame s t i :=
  (frame_set' (s := s) (f := { s.files i with closing := true }) rfl).trans (put_frame h)

theorem open_frame {s t : St} {i : Nat} {o : Outcome} {b : Bool} (h : openFile s i o = some (b, t)) :
    Frame s t i := by
  unfold openFile at h
  simp only at h
  split at h
  · cases hg : getFile (setFile s i { s.files i with closing := false }) i with
    | none => rw [hg] at h; cases h
    | some u =>
      rw [hg] at h; injection h with h; injection h with _ h; subst h
      exact (frame_set' (by rfl)).trans (get_frame hg)
  · split at h
    · cases h
    · cases o with
      | noOpen => injection h with h; injection h with _ h; subst h; exact Frame.refl _ _
      | ok =>
        simp only at h
        cases hg : getFile (setFile { s with nrOpen := s.nrOpen + 1 } i
          { s.files i with fd := true, opn := true, closing := false }) i with
        | none => rw [hg] at h; cases h
        | some u =>
          rw [hg] at h; injection h with h; injection h with _ h; subst h
          exact (frame_set (by rfl) _).trans (get_frame hg)
      | later =>
        simp only at h
        cases hg : getFile (setFile { s with nrOpen := s.nrOpen + 1 } i
          { s.files i with fd := true, opn := true, closing := false }) i with
        | none => rw [hg] at h; cases h
        | some u =>
          rw [hg] at h; injection h with h; injection h with _ h; subst h
          exact ((frame_set (by rfl) _).trans (get_frame hg)).trans (frame_set' (by rfl))

/-- File i cannot be used: done, being closed, or impossible to open. -/
def Unusable (s : St) (i : Nat) (o : Outcome) : Prop :=
  (s.files i).done = true ∨ ((s.files i).opn = true ∧ (s.files i).closing = true) ∨
    ((s.files i).opn = false ∧ o = .noOpen)

/-- File i after it has been opened. -/
def opened (s : St) (i : Nat) : St :=
  setFile { s with nrOpen := s.nrOpen + 1 } i
    { s.files i with fd := true, opn := true, closing := false, refs := 1 }

theorem try_cases {c : Cfg} {s : St} {h : Nat → Nat} (hi : Inv c s h) {i : Nat} (hlt : i < c.nr)
    {o : Outcome} (hno : o ≠ .later) :
    (tryFile c s i o = (.skip, s) ∧ Unusable s i o) ∨
    (tryFile c s i o = (.busy, s) ∧ (s.files i).done = false ∧ (s.files i).opn = false ∧ c.openFiles ≤ s.nrOpen) ∨
    (tryFile c s i o = (.take, s) ∧ (s.files i).done = false ∧ (s.files i).opn = true ∧
      (s.files i).closing = false) ∨
    (tryFile c s i o = (.take, opened s i) ∧ (s.files i).done = false ∧ (s.files i).opn = false ∧
      s.nrOpen < c.openFiles ∧ o = .ok ∧ Inv c (opened s i) h) := by
  unfold tryFile Unusable
  cases hd : (s.files i).done with
  | true => simp
  | false =>
    cases ho : (s.files i).opn with
    | true =>
      cases hcl : (s.files i).closing <;> simp
    | false =>
      simp only [Bool.false_eq_true, if_false]
      by_cases hl : s.nrOpen ≥ c.openFiles
      · rw [if_pos hl]; simp; exact hl
      · rw [if_neg hl]
        rcases open_inv hi hlt ho hno with ⟨h1, h2⟩ | ⟨h1, t, h2, h3, h4⟩
        · rw [h2]; simp [h1]
        · rw [h2]
          have h5 : t = opened s i := h4
          subst h5
          refine .inr (.inr (.inr ⟨?_, trivial, trivial, by omega, h1, h3⟩))
          simp [opened, setFile]

/-- The state after a file has been taken. -/
def Taken (c : Cfg) (s t : St) (i : Nat) : Prop :=
  (s.files i).done = false ∧
  ((t = s ∧ (s.files i).opn = true ∧ (s.files i).closing = false) ∨
    (t = opened s i ∧ (s.files i).opn = false ∧ s.nrOpen < c.openFiles))

theorem wrap_mod {x n : Nat} (h : x < n) : (if x + 1 ≥ n then 0 else x + 1) = (x + 1) % n := by
  split
  · have : x + 1 = n := by omega
    rw [this, Nat.mod_self]
  · rw [Nat.mod_eq_of_lt (by omega)]

theorem inv_next {c : Cfg} {s : St} {h : Nat → Nat} (hi : Inv c s h) {n : Nat} (hn : n < c.nr) :
    Inv c { s with next := n } h := ⟨hi.file, hi.out, hi.cnt, hn⟩

/-- The loop of round robin. -/
theorem rr_loop {c : Cfg} {old : Nat} {e : Nat → Outcome} (he : ∀ i, e i ≠ .later) (hold : old < c.nr) :
    ∀ (n d : Nat) (s : St) (h : Nat → Nat), Inv c s h → d < c.nr → s.next = (old + d) % c.nr → c.nr - d ≤ n →
    ∃ d', d ≤ d' ∧ d' ≤ c.nr ∧
      (∀ k, d ≤ k → k < d' → Unusable s ((old + k) % c.nr) (e ((old + k) % c.nr))) ∧
      (d' = c.nr → rrLoop c old e n s = (.null, { s with next := old })) ∧
      (d' < c.nr →
        (rrLoop c old e n s = (.busy, { s with next := (old + d' + 1) % c.nr }) ∧
          (s.files ((old + d') % c.nr)).done = false ∧ (s.files ((old + d') % c.nr)).opn = false ∧
            c.openFiles ≤ s.nrOpen) ∨
        (∃ t, rrLoop c old e n s = (.file ((old + d') % c.nr), t) ∧ Inv c t h ∧
          Taken c { s with next := (old + d' + 1) % c.nr } t ((old + d') % c.nr))) := by
  intro n
  induction n with
  | zero => intro d s h _ hd _ hn; omega
  | succ n ih =>
    intro d s h hi hd hs hn
    have hpos : 0 < c.nr := by omega
    have hlt : s.next < c.nr := hi.next
    have hw : (if s.next + 1 ≥ c.nr then 0 else s.next + 1) = (old + d + 1) % c.nr := by
      rw [wrap_mod hlt, hs, Nat.mod_add_mod]
    have hi' : Inv c { s with next := (old + d + 1) % c.nr } h := inv_next hi (Nat.mod_lt _ hpos)
    have hr : rrLoop c old e (n + 1) s =
        match tryFile c { s with next := (old + d + 1) % c.nr } s.next (e s.next) with
        | (.take, s') => (.file s.next, s')
        | (.busy, s') => (.busy, s')
        | (.abort, s') => (.abort, s')
        | (.skip, s') => if s'.next ≠ old then rrLoop c old e n s' else (.null, s') := by
      rw [rrLoop]; simp only [hw]; rfl
    rw [hr]
    rcases try_cases hi' hlt (he s.next) with ⟨h1, h2⟩ | ⟨h1, h2, h3, h4⟩ | ⟨h1, h2, h3, h4⟩ | ⟨h1, h2, h3, h4, _, h5⟩
    · rw [h1]
      simp only
      have hun : Unusable s ((old + d) % c.nr) (e ((old + d) % c.nr)) := by rw [← hs]; exact h2
      by_cases hd' : d + 1 = c.nr
      · have hm : (old + d + 1) % c.nr = old := by
          rw [show old + d + 1 = old + c.nr by omega, Nat.add_mod_right, Nat.mod_eq_of_lt hold]
        refine ⟨c.nr, by omega, Nat.le_refl _, ?_, ?_, by omega⟩
        · intro k hk hk'
          have : k = d := by omega
          subst this; exact hun
        · intro _
          rw [if_neg (by simp [hm])]
          simp [hm]
      · have hm : (old + d + 1) % c.nr ≠ old := by
          by_cases hc : old + d + 1 < c.nr
          · rw [Nat.mod_eq_of_lt hc]; omega
          · rw [Nat.mod_eq_sub_mod (by omega), Nat.mod_eq_of_lt (by omega)]; omega
        obtain ⟨d', h3, h4, h5, h6, h7⟩ := ih (d + 1) _ h hi' (by omega) rfl (by omega)
        refine ⟨d', by omega, h4, ?_, ?_, ?_⟩
        · intro k hk hk'
          by_cases hkd : k = d
          · subst hkd; exact hun
          · exact h5 k (by omega) hk'
        · intro h8
          rw [if_pos hm]
          exact h6 h8
        · intro h8
          rw [if_pos hm]
          exact h7 h8
    · refine ⟨d, Nat.le_refl _, by omega, by intro k _ _; omega, by omega, ?_⟩
      intro _
      left
      rw [h1, ← hs]
      exact ⟨rfl, h2, h3, h4⟩
    · refine ⟨d, Nat.le_refl _, by omega, by intro k _ _; omega, by omega, ?_⟩
      intro _
      right
      rw [h1, ← hs]
      exact ⟨_, rfl, hi', h2, .inl ⟨rfl, h3, h4⟩⟩
    · refine ⟨d, Nat.le_refl _, by omega, by intro k _ _; omega, by omega, ?_⟩
      intro _
      right
      rw [h1, ← hs]
      exact ⟨_, rfl, h5, h2, .inr ⟨rfl, h3, h4⟩⟩

/-- get_next_file_rr. -/
theorem rr_spec {c : Cfg} {e : Nat → Outcome} (he : ∀ i, e i ≠ .later) {n : Nat} (hn : c.nr ≤ n) {s : St}
    {h : Nat → Nat} (hi : Inv c s h) :
    ∃ d, d ≤ c.nr ∧
      (∀ k, k < d → Unusable s ((s.next + k) % c.nr) (e ((s.next + k) % c.nr))) ∧
      (d = c.nr → nextRr c e n s = (.null, s)) ∧
      (d < c.nr →
        (nextRr c e n s = (.busy, { s with next := (s.next + d + 1) % c.nr }) ∧
          (s.files ((s.next + d) % c.nr)).done = false ∧ (s.files ((s.next + d) % c.nr)).opn = false ∧
            c.openFiles ≤ s.nrOpen) ∨
        (∃ t, nextRr c e n s = (.file ((s.next + d) % c.nr), t) ∧ Inv c t h ∧
          Taken c { s with next := (s.next + d + 1) % c.nr } t ((s.next + d) % c.nr))) := by
  have hlt := hi.next
  obtain ⟨d, _, h1, h2, h3, h4⟩ := rr_loop he hlt n 0 s h hi (by omega) (by rw [Nat.add_zero, Nat.mod_eq_of_lt hlt])
    (by omega)
  exact ⟨d, h1, fun k hk => h2 k (Nat.zero_le _) hk, h3, h4⟩

/-- get_next_file_rand. -/
theorem rand_loop {c : Cfg} {d : Nat → Nat × Outcome} (hd : ∀ k, (d k).1 < c.nr ∧ (d k).2 ≠ .later) :
    ∀ (n k : Nat) (s : St) (h : Nat → Nat), Inv c s h →
    ∃ j, j ≤ n ∧
      (∀ l, l < j → Unusable s (d (k + l)).1 (d (k + l)).2) ∧
      (j = n → randLoop c d n k s = (.spin, s)) ∧
      (j < n →
        (randLoop c d n k s = (.busy, s) ∧ (s.files (d (k + j)).1).done = false ∧
          (s.files (d (k + j)).1).opn = false ∧ c.openFiles ≤ s.nrOpen) ∨
        (∃ t, randLoop c d n k s = (.file (d (k + j)).1, t) ∧ Inv c t h ∧ Taken c s t (d (k + j)).1)) := by
  intro n
  induction n with
  | zero => intro k s h _; exact ⟨0, by omega, by intro l hl; omega, fun _ => rfl, by omega⟩
  | succ n ih =>
    intro k s h hi
    have hr : randLoop c d (n + 1) k s =
        match tryFile c s (d k).1 (d k).2 with
        | (.take, s) => (.file (d k).1, s)
        | (.busy, s) => (.busy, s)
        | (.abort, s) => (.abort, s)
        | (.skip, s) => randLoop c d n (k + 1) s := by rw [randLoop]; rfl
    rw [hr]
    rcases try_cases hi (hd k).1 (hd k).2 with ⟨h1, h2⟩ | ⟨h1, h2, h3, h4⟩ | ⟨h1, h2, h3, h4⟩ | ⟨h1, h2, h3, h4, _, h5⟩
    · rw [h1]
      obtain ⟨j, h3, h4, h5, h6⟩ := ih (k + 1) s h hi
      refine ⟨j + 1, by omega, ?_, ?_, ?_⟩
      · intro l hl
        cases l with
        | zero => exact h2
        | succ l => rw [show k + (l + 1) = k + 1 + l by omega]; exact h4 l (by omega)
      · intro h; exact h5 (by omega)
      · intro h
        rw [show k + (j + 1) = k + 1 + j by omega]
        exact h6 (by omega)
    · refine ⟨0, by omega, by intro l hl; omega, by omega, ?_⟩
      intro _; left; rw [h1]; exact ⟨rfl, h2, h3, h4⟩
    · refine ⟨0, by omega, by intro l hl; omega, by omega, ?_⟩
      intro _; right; rw [h1]; exact ⟨_, rfl, hi, h2, .inl ⟨rfl, h3, h4⟩⟩
    · refine ⟨0, by omega, by intro l hl; omega, by omega, ?_⟩
      intro _; right; rw [h1]; exact ⟨_, rfl, h5, h2, .inr ⟨rfl, h3, h4⟩⟩

/-- No file is opened and then found to be unusable, and draws are files. -/
def GoodEnv (c : Cfg) (e : Env) : Prop :=
  (∀ i, e.opens i ≠ .later) ∧ ∀ k, (e.draws k).1 < c.nr ∧ (e.draws k).2 ≠ .later

/-- What get_next_file leaves alone, and what it returns. -/
structure Picked (c : Cfg) (s : St) (h : Nat → Nat) (p : Pick) (t : St) : Prop where
  inv : Inv c t h
  noabort : p ≠ .abort
  holds : t.holds = s.holds
  nrDone : t.nrDone = s.nrDone
  done : ∀ j, (t.files j).done = (s.files j).done
  lim : s.nrOpen ≤ c.openFiles → t.nrOpen ≤ c.openFiles
  usable : ∀ i, p = .file i → i < c.nr ∧ (t.files i).opn = true ∧ (t.files i).closing = false
  same : ∀ j, (s.files j).opn = true → t.files j = s.files j
  fresh : ∀ j, (t.files j).opn = true → (s.files j).opn = true ∨ (s.files j).done = false
  same' : ∀ j, (t.files j).opn = true → (t.files j).closing = true → (s.files j).opn = true ∧ (s.files j).closing = true

theorem picked_self {c : Cfg} {s : St} {h : Nat → Nat} (hi : Inv c s h) {p : Pick} (hp : p ≠ .abort)
    (hf : ∀ i, p ≠ .file i) {nx : Nat} (hnx : nx < c.nr) {v : Option Nat} {l : Nat} :
    Picked c s h p { s with next := nx, svc := v, left := l } :=
  ⟨⟨hi.file, hi.out, hi.cnt, hnx⟩, hp, rfl, rfl, fun _ => rfl, fun h => h, fun i h => absurd h (hf i),
    fun _ _ => rfl, fun _ a => .inl a, fun _ a b => ⟨a, b⟩⟩

theorem picked_taken {c : Cfg} {s : St} {h : Nat → Nat} {nx : Nat} {t : St} {i : Nat}
    (hlt : i < c.nr) (ht : Inv c t h) (hk : Taken c { s with next := nx } t i) {v : Option Nat} {l : Nat} :
    Picked c s h (.file i) { t with svc := v, left := l } := by
  obtain ⟨h1, ⟨h2, h3, h4⟩ | ⟨h2, h3, h4⟩⟩ := hk
  · subst h2
    exact ⟨⟨ht.file, ht.out, ht.cnt, ht.next⟩, by simp, rfl, rfl, fun _ => rfl, fun h => h,
      fun j hj => by injection hj with hj; subst hj; exact ⟨hlt, h3, h4⟩, fun _ _ => rfl, fun _ a => .inl a,
      fun _ a b => ⟨a, b⟩⟩
  · subst h2
    refine ⟨⟨ht.file, ht.out, ht.cnt, ht.next⟩, by simp, rfl, rfl, ?_, ?_, ?_, ?_, ?_, ?_⟩
    · intro j; simp only [opened, setFile]; split
      · next e => rw [e]
      · rfl
    · intro _; exact h4
    · intro j hj; injection hj with hj; subst hj; exact ⟨hlt, by simp [opened, setFile], by simp [opened, setFile]⟩
    · intro j hj
      have : j ≠ i := by intro e; subst e; simp only at h3; rw [h3] at hj; cases hj
      simp [opened, setFile, this]
    · intro j a
      by_cases e : j = i
      · subst e; exact .inr h1
      · simp only [opened, setFile, e, if_false] at a; exact .inl a
    · intro j a b
      by_cases e : j = i
      · subst e; simp [opened, setFile] at b
      · simp only [opened, setFile, e, if_false] at a b; exact ⟨a, b⟩

theorem search_picked {c : Cfg} {n : Nat} {e : Env} {s : St} {h : Nat → Nat} (hi : Inv c s h) (he : GoodEnv c e)
    (hrr : c.service = .rr ∨ c.service = .seq → c.nr ≤ n) :
    Picked c s h (search c n e s).1 (search c n e s).2 ∧
      (c.service = .rr ∨ c.service = .seq → (search c n e s).1 ≠ .spin) := by
  have hpos : 0 < c.nr := Nat.lt_of_le_of_lt (Nat.zero_le _) hi.next
  have rr : c.nr ≤ n → ∀ x, x = nextRr c e.opens n s → ∀ y : Pick × St, y = (match x with
      | (.file i, s) => (.file i, { s with svc := some i, left := leftInit c })
      | (.null, s) => (.null, { s with svc := none, left := leftInit c })
      | r => r) → Picked c s h y.1 y.2 ∧ y.1 ≠ .spin := by
    intro hn x hx y hy
    obtain ⟨d, h1, _, h3, h4⟩ := rr_spec he.1 hn hi
    by_cases hd : d = c.nr
    · rw [h3 hd] at hx
      subst hx; subst hy
      exact ⟨picked_self hi (by simp) (by simp) hi.next, by simp⟩
    · rcases h4 (by omega) with ⟨h5, _⟩ | ⟨t, h5, h6, h7⟩
      · rw [h5] at hx
        subst hx; subst hy
        exact ⟨picked_self hi (by simp) (by simp) (Nat.mod_lt _ hpos), by simp⟩
      · rw [h5] at hx
        subst hx; subst hy
        exact ⟨picked_taken (Nat.mod_lt _ hpos) h6 h7, by simp⟩
  have rd : ∀ x, x = randLoop c e.draws n 0 s → ∀ y : Pick × St, y = (match x with
      | (.file i, s) => (.file i, { s with svc := some i, left := leftInit c })
      | (.null, s) => (.null, { s with svc := none, left := leftInit c })
      | r => r) → Picked c s h y.1 y.2 := by
    intro x hx y hy
    obtain ⟨j, h1, _, h3, h4⟩ := rand_loop he.2 n 0 s h hi
    by_cases hd : j = n
    · rw [h3 hd] at hx
      subst hx; subst hy
      exact picked_self hi (by simp) (by simp) hi.next
    · rcases h4 (by omega) with ⟨h5, _⟩ | ⟨t, h5, h6, h7⟩
      · rw [h5] at hx
        subst hx; subst hy
        exact picked_self hi (by simp) (by simp) hi.next
      · rw [h5] at hx
        subst hx; subst hy
        exact picked_taken (nx := s.next) (he.2 _).1 h6 h7
  unfold search
  cases hs : c.service with
  | rr =>
    have := rr (hrr (.inl hs)) _ rfl _ rfl
    exact ⟨this.1, fun _ => this.2⟩
  | seq =>
    have := rr (hrr (.inr hs)) _ rfl _ rfl
    exact ⟨this.1, fun _ => this.2⟩
  | random => exact ⟨rd _ rfl _ rfl, by simp⟩
  | uneven => exact ⟨rd _ rfl _ rfl, by simp⟩

theorem current_some {s : St} {i : Nat} (h : current s = some i) :
    s.svc = some i ∧ (s.files i).opn = true ∧ (s.files i).closing = false := by
  unfold current at h
  split at h
  · next j hj =>
    split at h
    · next hc => injection h with h; subst h; simp at hc; exact ⟨hj, hc.1, hc.2⟩
    · cases h
  · cases h

theorem next_picked {c : Cfg} {n : Nat} {e : Env} {s : St} {h : Nat → Nat} (hi : Inv c s h) (he : GoodEnv c e)
    (hrr : c.service = .rr ∨ c.service = .seq → c.nr ≤ n) :
    Picked c s h (nextFile c n e s).1 (nextFile c n e s).2 ∧
      (c.service = .rr ∨ c.service = .seq → (nextFile c n e s).1 ≠ .spin) := by
  have hcur : ∀ i, current s = some i → ∀ l, Picked c s h (.file i) { s with left := l } := by
    intro i hc l
    obtain ⟨_, h1, h2⟩ := current_some hc
    have hlt : i < c.nr := by
      apply Decidable.byContradiction; intro hn
      have := hi.out i (by omega); simp [h1] at this
    exact ⟨⟨hi.file, hi.out, hi.cnt, hi.next⟩, by simp, rfl, rfl, fun _ => rfl, fun h => h,
      fun j hj => by injection hj with hj; subst hj; exact ⟨hlt, h1, h2⟩, fun _ _ => rfl, fun _ a => .inl a,
      fun _ a b => ⟨a, b⟩⟩
  unfold nextFile
  split
  · exact ⟨picked_self (v := s.svc) (l := s.left) hi (by simp) (by simp) hi.next, by simp⟩
  · split
    · next i hc =>
      split
      · exact ⟨hcur i hc s.left, by simp⟩
      · split
        · exact ⟨hcur i hc _, by simp⟩
        · exact search_picked hi he hrr
    · exact search_picked hi he hrr

theorem put_nrOpen {s t : St} {i : Nat} (h : putFile s i = some t) : t.nrOpen ≤ s.nrOpen := by
  unfold putFile at h
  simp only at h
  split at h
  · split at h
    · cases h
    · injection h with h; subst h; exact Nat.le_refl _
  · split at h
    · cases h
    · split at h
      · injection h with h; subst h; exact Nat.le_refl _
      · split at h
        · cases h
        · injection h with h; subst h; exact Nat.sub_le _ _

theorem close_nrOpen {s t : St} {i : Nat} (h : closeFile s i = some t) : t.nrOpen ≤ s.nrOpen :=
  put_nrOpen (s := setFile s i { s.files i with closing := true }) h

/-- After a close, the file is not open, or is being closed. -/
theorem close_shut {s t : St} {i : Nat} (h : closeFile s i = some t) :
    (t.files i).opn = true → (t.files i).closing = true := by
  unfold closeFile putFile at h
  simp only [setFile, if_pos] at h
  split at h
  · next ho =>
    split at h
    · cases h
    · injection h with h; subst h; simp at ho; simp [ho]
  · split at h
    · cases h
    · split at h
      · injection h with h; subst h; simp
      · split at h
        · cases h
        · injection h with h; subst h; simp

theorem giveUp_inv {c : Cfg} {s : St} {h : Nat → Nat} {i : Nat} (hi : Inv c s (upd h i (h i + 1)))
    (ho : (s.files i).opn = true) (hc : (s.files i).closing = false) (b : Bool) :
    ∃ t, giveUp c s i b = some t ∧ Inv c t h ∧ t.nrOpen ≤ s.nrOpen ∧ t.holds = s.holds ∧
      t.next = s.next ∧ t.svc = s.svc ∧ t.left = s.left ∧
      (∀ j, j ≠ i → t.files j = s.files j) ∧ ((t.files i).opn = true → (t.files i).closing = true) ∧
      (t.nrDone = s.nrDone + (if b = true ∨ c.service = .uneven then 0 else 1)) ∧
      ((t.files i).done = ((s.files i).done || !(b || decide (c.service = .uneven)))) := by
  obtain ⟨h1, h2, h3⟩ := hi.file i
  obtain ⟨h4, h5⟩ := h2 ho
  simp only [upd, if_pos, hc] at h4
  simp at h4
  have hp : putFile s i = some (setFile s i { s.files i with refs := (s.files i).refs - 1 }) := by
    unfold putFile
    simp only [ho, Bool.not_true]
    rw [if_neg (by simp), if_neg (by omega), if_pos (by omega)]
  obtain ⟨u, hp', hu⟩ := put_inv hi (i := i) (by simp [upd])
  rw [hp] at hp'
  injection hp' with hp'
  rw [upd_upd] at hu
  simp only [upd, if_pos, Nat.add_sub_cancel] at hu
  have hu' : Inv c u h := by
    rwa [upd_self] at hu
  obtain ⟨v, h6, h7⟩ := close_inv hu' (i := i) (by subst hp'; simp [setFile, ho]) (by subst hp'; simp [setFile, hc])
  have fr := (put_frame hp).trans (hp' ▸ close_frame h6)
  have le : v.nrOpen ≤ s.nrOpen := by
    have := close_nrOpen h6
    rw [← hp'] at this
    exact this
  have sh := close_shut h6
  have hg : giveUp c s i b = if b || decide (c.service = .uneven) then some v
      else some (setFile { v with nrDone := v.nrDone + 1 } i { v.files i with done := true }) := by
    unfold giveUp
    rw [hp]
    simp only
    rw [hp', h6]
  rw [hg]
  by_cases hb : b || decide (c.service = .uneven)
  · rw [if_pos hb]
    refine ⟨v, rfl, h7, le, fr.holds, fr.next, fr.svc, fr.left, fr.other, sh, ?_, ?_⟩
    · rw [if_pos (by simpa using hb), fr.nrDone]; rfl
    · rw [hb, fr.done]; simp
  · rw [if_neg hb]
    refine ⟨_, rfl, ?_, le, fr.holds, fr.next, fr.svc, fr.left, ?_, ?_, ?_, ?_⟩
    · have := inv_keep h7 (i := i) (n := h i) (f := { v.files i with done := true }) (h7.file i) rfl
      rw [upd_self] at this
      exact ⟨this.file, this.out, this.cnt, this.next⟩
    · intro j hj
      simp only [setFile, hj, if_false]
      exact fr.other j hj
    · simpa [setFile] using sh
    · rw [if_neg (by simpa using hb)]
      simp [setFile, fr.nrDone]
    · simp at hb; simp [setFile, hb]

/-- set_io_u_file. -/
theorem set_inv {c : Cfg} {n : Nat} {env : Nat → Env} (he : ∀ k, GoodEnv c (env k))
    (hrr : c.service = .rr ∨ c.service = .seq → c.nr ≤ n) :
    ∀ (m k : Nat) (s : St), Inv c s s.holds →
      Inv c (setLoop c n env m k s).2 (setLoop c n env m k s).2.holds ∧
      (setLoop c n env m k s).1 ≠ .abort ∧
      (s.nrOpen ≤ c.openFiles → (setLoop c n env m k s).2.nrOpen ≤ c.openFiles) ∧
      (c.service = .rr ∨ c.service = .seq → c.nr < m + s.nrDone → (setLoop c n env m k s).1 ≠ .spin ∨ m = 0) ∧
      (∀ i, (setLoop c n env m k s).1 = .file i → i < c.nr ∧ (setLoop c n env m k s).2.holds = upd s.holds i (s.holds i + 1)) ∧
      ((∀ i, (setLoop c n env m k s).1 ≠ .file i) → (setLoop c n env m k s).2.holds = s.holds) := by
  intro m
  induction m with
  | zero => intro k s hi; exact ⟨hi, by simp [setLoop], fun h => h, fun _ _ => .inr rfl, by simp [setLoop], fun _ => rfl⟩
  | succ m ih =>
    intro k s hi
    have hp := next_picked hi (he k) hrr (n := n)
    rw [setLoop]
    generalize hq : nextFile c n (env k) s = q at hp
    obtain ⟨p, t⟩ := q
    obtain ⟨hp, hsp⟩ := hp
    simp only at hp hsp
    cases p with
    | null => exact ⟨hp.holds ▸ hp.inv, by simp, hp.lim, fun _ _ => .inl (by simp), by simp, fun _ => hp.holds⟩
    | busy => exact ⟨hp.holds ▸ hp.inv, by simp, hp.lim, fun _ _ => .inl (by simp), by simp, fun _ => hp.holds⟩
    | spin => exact ⟨hp.holds ▸ hp.inv, by simp, hp.lim, fun h _ => absurd rfl (hsp h), by simp, fun _ => hp.holds⟩
    | abort => exact absurd rfl hp.noabort
    | file i =>
      obtain ⟨hlt, ho, hc⟩ := hp.usable i rfl
      obtain ⟨u, h1, h2, h3⟩ := get_inv hp.inv ho
      have fr := get_frame h1
      have hnu : u.nrOpen = t.nrOpen := by rw [h3]; rfl
      simp only
      rw [h1]
      simp only
      cases hf : (env k).fill i with
      | ok =>
        have e : (setHolds u i (u.holds i + 1)).holds = upd s.holds i (s.holds i + 1) := by
          show upd u.holds i (u.holds i + 1) = _
          rw [fr.holds, hp.holds]
        refine ⟨?_, by simp, ?_, fun _ _ => .inl (by simp), ?_, ?_⟩
        · show Inv c (setHolds u i (u.holds i + 1)) _
          rw [e]
          exact ⟨h2.file, h2.out, h2.cnt, h2.next⟩
        · intro hl
          show u.nrOpen ≤ _
          rw [hnu]; exact hp.lim hl
        · intro j hj
          injection hj with hj; subst hj
          exact ⟨hlt, e⟩
        · intro h; exact absurd rfl (h i)
      | timeout =>
        obtain ⟨v, g1, g2, g3, g4, _⟩ := giveUp_inv h2 (by subst h3; simp [setFile, ho])
          (by subst h3; simp [setFile, hc]) true
        simp only [g1]
        have e : v.holds = s.holds := by rw [g4, fr.holds, hp.holds]
        refine ⟨e ▸ g2, by simp, ?_, fun _ _ => .inl (by simp), by simp, fun _ => e⟩
        intro hl
        have := hp.lim hl
        show v.nrOpen ≤ _
        omega
      | fail =>
        obtain ⟨v, g1, g2, g3, g4, _, _, _, _, _, g5, _⟩ := giveUp_inv h2 (by subst h3; simp [setFile, ho])
          (by subst h3; simp [setFile, hc]) false
        simp only [g1]
        have e : v.holds = s.holds := by rw [g4, fr.holds, hp.holds]
        obtain ⟨r1, r2, r3, r4, r5, r6⟩ := ih (k + 1) v (e ▸ g2)
        refine ⟨r1, r2, ?_, ?_, ?_, ?_⟩
        · intro hl
          have := hp.lim hl
          exact r3 (by omega)
        · intro hs hm
          left
          have hd : ¬ s.nrDone ≥ c.nr := by
            intro hge
            rw [nextFile, if_pos hge] at hq
            cases hq
          rw [if_neg (by rcases hs with h | h <;> simp [h]), fr.nrDone, hp.nrDone] at g5
          rcases r4 hs (by omega) with h | h
          · exact h
          · omega
        · rw [← e]; exact r5
        · rw [← e]; exact r6

theorem closeFiles_inv {c : Cfg} :
    ∀ (n : Nat) (s : St), Inv c s s.holds → (∀ i, i < n → s.holds i = 0) →
      ∃ t, closeFiles n s = some t ∧ Inv c t t.holds ∧ t.nrOpen ≤ s.nrOpen ∧ t.holds = s.holds ∧
        (∀ i, i < n → (t.files i).opn = false) ∧ (∀ i, n ≤ i → t.files i = s.files i) ∧
        (∀ i, (t.files i).done = (s.files i).done) := by
  intro n
  induction n with
  | zero => intro s hi _; exact ⟨s, rfl, hi, Nat.le_refl _, rfl, by intro i h; omega, fun _ _ => rfl, fun _ => rfl⟩
  | succ n ih =>
    intro s hi h0
    obtain ⟨t, h1, h2, h3, h4, h5, h6, h7⟩ := ih s hi (fun i h => h0 i (by omega))
    simp only [closeFiles, h1]
    obtain ⟨f1, f2, f3⟩ := h2.file n
    have hz : t.holds n = 0 := by rw [h4]; exact h0 n (by omega)
    cases ho : (t.files n).opn with
    | false =>
      refine ⟨t, by simp, h2, h3, h4, ?_, fun i h => h6 i (by omega), h7⟩
      intro i hi'
      by_cases e : i = n
      · rw [e]; exact ho
      · exact h5 i (by omega)
    | true =>
      have hc : (t.files n).closing = false := by
        cases hcl : (t.files n).closing with
        | false => rfl
        | true =>
          have := f2 ho
          rw [hz, hcl] at this
          simp at this; omega
      obtain ⟨u, g1, g2⟩ := close_inv h2 ho hc
      have fr := close_frame g1
      refine ⟨u, by simpa using g1, fr.holds ▸ g2, ?_, fr.holds.trans h4, ?_, ?_, ?_⟩
      · have := close_nrOpen g1; omega
      · intro i hi'
        by_cases e : i = n
        · rw [e]
          cases hou : (u.files n).opn with
          | false => rfl
          | true =>
            have h8 := close_shut g1 hou
            have := (g2.file n).2.1 hou
            rw [hz, h8] at this
            simp at this; omega
        · rw [fr.other i e]; exact h5 i (by omega)
      · intro i hi'
        rw [fr.other i (by omega)]
        exact h6 i (by omega)
      · intro i; rw [fr.alldone]; exact h7 i

end Fio.Files
