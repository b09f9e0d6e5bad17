import Verif.Files.Seq

/-
C64: progress, and where there is none.
-/
namespace Fio.Files

theorem next_busy {c : Cfg} (hs : c.service = .rr ∨ c.service = .seq) {n : Nat} {e : Env} {s t : St} {h : Nat → Nat}
    (hi : Inv c s h) (he : GoodEnv c e) (hn : c.nr ≤ n) (hq : nextFile c n e s = (.busy, t)) :
    ∃ d, d < c.nr ∧ t = { s with next := (s.next + d + 1) % c.nr } ∧ c.openFiles ≤ s.nrOpen ∧
      (∀ k, k < d → Unusable s ((s.next + k) % c.nr) (e.opens ((s.next + k) % c.nr))) ∧
      (s.files ((s.next + d) % c.nr)).opn = false := by
  have srch : search c n e s = (.busy, t) → ∃ d, d < c.nr ∧ t = { s with next := (s.next + d + 1) % c.nr } ∧
      c.openFiles ≤ s.nrOpen ∧ (∀ k, k < d → Unusable s ((s.next + k) % c.nr) (e.opens ((s.next + k) % c.nr))) ∧
      (s.files ((s.next + d) % c.nr)).opn = false := by
    intro hq
    have hq' : (match nextRr c e.opens n s with
        | (.file i, s) => (.file i, { s with svc := some i, left := leftInit c })
        | (.null, s) => (.null, { s with svc := none, left := leftInit c })
        | r => r) = (Pick.busy, t) := by
      unfold search at hq
      rcases hs with h | h <;> rw [h] at hq <;> exact hq
    obtain ⟨d, h1, h2, h3, h4⟩ := rr_spec he.1 hn hi
    by_cases hd : d = c.nr
    · rw [h3 hd] at hq'; cases hq'
    · rcases h4 (by omega) with ⟨h5, _, h6, h7⟩ | ⟨u, h5, _⟩
      · rw [h5] at hq'
        injection hq' with _ hq'
        exact ⟨d, by omega, hq'.symm, h7, h2, h6⟩
      · rw [h5] at hq'; cases hq'
  unfold nextFile at hq
  split at hq
  · cases hq
  · split at hq
    · split at hq
      · cases hq
      · split at hq
        · cases hq
        · exact srch hq
    · exact srch hq

/-- If nothing is in flight and a file may be opened, set_io_u_file does not say that it is busy. -/
theorem set_nobusy {c : Cfg} (hs : c.service = .rr ∨ c.service = .seq) {n : Nat} {env : Nat → Env}
    (he : ∀ k, GoodEnv c (env k)) (hn : c.nr ≤ n) (ht : ∀ k i, (env k).fill i ≠ .timeout) :
    ∀ (m k : Nat) (s : St), Inv c s s.holds → (∀ i, s.holds i = 0) →
      (s.nrOpen < c.openFiles → (setLoop c n env m k s).1 ≠ .busy) ∧
      (s.nrOpen ≤ c.openFiles → (setLoop c n env m k s).1 = .busy →
        ∃ d, d < c.nr ∧ (setLoop c n env m k s).2 = { s with next := (s.next + d + 1) % c.nr } ∧
          c.openFiles ≤ s.nrOpen ∧
          (∀ l, l < d → ∃ o, Unusable s ((s.next + l) % c.nr) o) ∧ (s.files ((s.next + d) % c.nr)).opn = false) := by
  intro m
  induction m with
  | zero => intro k s _ _; exact ⟨by simp [setLoop], by simp [setLoop]⟩
  | succ m ih =>
    intro k s hi hz
    have hp := (next_picked hi (he k) (n := n) (fun _ => hn)).1
    have hb := fun t => next_busy (t := t) hs hi (he k) hn
    rw [setLoop]
    generalize hq : nextFile c n (env k) s = q at hp hb
    obtain ⟨p, t⟩ := q
    simp only at hp
    cases p with
    | null => exact ⟨by simp, by simp⟩
    | spin => exact ⟨by simp, by simp⟩
    | abort => exact absurd rfl hp.noabort
    | busy =>
      obtain ⟨d, h1, h2, h3, h4, h5⟩ := hb t rfl
      refine ⟨by intro h; omega, fun _ _ => ⟨d, h1, h2, h3, fun l hl => ⟨_, h4 l hl⟩, h5⟩⟩
    | file i =>
      obtain ⟨hlt, hop, hc⟩ := hp.usable i rfl
      obtain ⟨u, h1, h2, h3⟩ := get_inv hp.inv hop
      have fr := get_frame h1
      have hou : (u.files i).opn = true := by rw [h3]; simp [setFile, hop]
      have hcu : (u.files i).closing = false := by rw [h3]; simp [setFile, hc]
      simp only
      rw [h1]
      simp only
      cases hf : (env k).fill i with
      | ok => exact ⟨by simp, by simp⟩
      | timeout => exact absurd hf (ht k i)
      | fail =>
        obtain ⟨v, g1, g2, g3, g4, _, _, _, g6, g7, g5, g8⟩ := giveUp_inv h2 hou hcu false
        simp only [g1]
        have e : v.holds = s.holds := by rw [g4, fr.holds, hp.holds]
        have hvo : (v.files i).opn = false := by
          cases hvo : (v.files i).opn with
          | false => rfl
          | true =>
            have h4 := (g2.file i).2.1 hvo
            rw [g7 hvo, hz i] at h4
            simp at h4; omega
        have hcnt : v.nrOpen + 1 = u.nrOpen := by
          rw [g2.cnt, h2.cnt]
          have hs := cnt_set (p := fun j => (u.files j).opn) (q := fun j => (v.files j).opn) hlt
            (by intro j hj; rw [g6 j hj])
          simp only [hou, hvo] at hs
          simp at hs
          omega
        have hun : u.nrOpen = t.nrOpen := by rw [h3]; rfl
        have hv : s.nrOpen ≤ c.openFiles → v.nrOpen < c.openFiles := by
          intro h; have := hp.lim h; omega
        have r := ih (k + 1) v (e ▸ g2) (by intro j; rw [e]; exact hz j)
        refine ⟨fun h => r.1 (hv (by omega)), fun h hbz => absurd hbz (r.1 (hv h))⟩

/-- An event that asks for an I/O. -/
def Ev.isAsk : Ev → Bool
  | .ask _ _ => true
  | .put _ => false

/-- C64: with openfiles set, the choice may come to a file that must not be opened yet, and set_io_u_file says that it
is busy.  If no I/O is in flight, this does not go on: of nr_files calls in a row, not all say so. -/
theorem C64_moves_on_partial {c : Cfg} (hn : 0 < c.nr) (hs : c.service = .rr ∨ c.service = .seq)
    (ho : 0 < c.openFiles) (quota : Nat → Nat) {es : List Ev} (he : ∀ e ∈ es, e.Ok c)
    (hz : ∀ i, (serve c quota .start es).st.holds i = 0)
    {as : List Ev} (ha : ∀ e ∈ as, e.Ok c) (hask : ∀ e ∈ as, e.isAsk) (hlen : as.length = c.nr) :
    (serve c quota (serve c quota .start es) as).out ≠ List.replicate c.nr .busy ++ (serve c quota .start es).out := by
  have hu : c.service ≠ .uneven := by rcases hs with h | h <;> simp [h]
  -- the limit
  have lim : ∀ (es : List Ev) (s : Srv), SInv c quota s → s.st.nrOpen ≤ c.openFiles → (∀ e ∈ es, e.Ok c) →
      (serve c quota s es).st.nrOpen ≤ c.openFiles := by
    intro es
    induction es with
    | nil => intro s _ h _; exact h
    | cons e es ih =>
      intro s h hl he
      refine ih _ (serve_step hu h (he e (by simp))) ?_ (fun e' h' => he e' (by simp [h']))
      have heo := he e (by simp)
      cases e with
      | ask n d =>
        have hg := fun k => quota_good (quota := quota) (used := s.used) heo k
        have h1 := (set_inv hg (n := c.nr + n) (fun _ => by omega) (c.nr + 1) 0 s.st h.inv).2.2.1 hl
        unfold serveStep
        simp only
        generalize setLoop c (c.nr + n) (quotaEnv quota s.used d) (c.nr + 1) 0 s.st = r at h1
        obtain ⟨p, t⟩ := r
        cases p <;> exact h1
      | put i =>
        unfold serveStep
        simp only
        cases hq : step c s.st (.put i) with
        | none => exact hl
        | some t =>
          simp only [step] at hq
          split at hq
          · injection hq with hq; subst hq; exact hl
          · exact Nat.le_trans (put_nrOpen hq) hl
  -- answers are only added
  have more : ∀ (as : List Ev) (s : Srv), (∀ e ∈ as, e.isAsk) →
      ∃ l, (serve c quota s as).out = l ++ s.out ∧ l.length = as.length := by
    intro as
    induction as with
    | nil => intro s _; exact ⟨[], rfl, rfl⟩
    | cons a as ih =>
      intro s hask
      cases a with
      | put i => have := hask (.put i) (by simp); cases this
      | ask n d =>
        obtain ⟨l, h1, h2⟩ := ih (serveStep c quota s (.ask n d)) (fun e h => hask e (by simp [h]))
        have : ∃ p, (serveStep c quota s (.ask n d)).out = p :: s.out := by
          unfold serveStep
          simp only
          split <;> exact ⟨_, rfl⟩
        obtain ⟨p, hp⟩ := this
        refine ⟨l ++ [p], ?_, by simp [h2]⟩
        simp only [serve]
        rw [h1, hp]; simp
  -- the way to the next open file
  have key : ∀ (δ : Nat) (as : List Ev) (s : Srv) (x : Nat), SInv c quota s → s.st.nrOpen ≤ c.openFiles →
      (∀ i, s.st.holds i = 0) → (s.st.files x).opn = true → (s.st.files x).closing = false →
      (s.st.files x).done = false → (s.st.next + δ) % c.nr = x → δ < as.length → (∀ e ∈ as, e.Ok c) →
      (∀ e ∈ as, e.isAsk) → (serve c quota s as).out ≠ List.replicate as.length .busy ++ s.out := by
    intro δ
    induction δ using Nat.strongRecOn with
    | ind δ ih =>
      intro as s x hsi hl hz hxo hxc hxd hx hlen hok hask heq
      cases as with
      | nil => simp at hlen
      | cons a as =>
        cases a with
        | put i => have := hask (.put i) (by simp); cases this
        | ask n d =>
          have hg := fun k => quota_good (quota := quota) (used := s.used) (hok (.ask n d) (by simp)) k
          have hb := (set_nobusy hs hg (n := c.nr + n) (by omega)
            (by intro k i; simp only [quotaEnv]; split <;> simp) (c.nr + 1) 0 s.st hsi.inv hz).2 hl
          have hsi' := serve_step hu hsi (hok (.ask n d) (by simp))
          obtain ⟨l, h1, h2⟩ := more as (serveStep c quota s (.ask n d)) (fun e h => hask e (by simp [h]))
          simp only [serve, List.length_cons] at heq hlen
          rw [List.replicate_succ', List.append_assoc] at heq
          -- the first answer is busy
          have hout : (serveStep c quota s (.ask n d)).out = .busy :: s.out := by
            rw [h1] at heq
            have := List.append_inj_right heq (by simp [h2])
            simpa using this
          have hset : (setLoop c (c.nr + n) (quotaEnv quota s.used d) (c.nr + 1) 0 s.st).1 = .busy ∧
              (serveStep c quota s (.ask n d)).st =
                (setLoop c (c.nr + n) (quotaEnv quota s.used d) (c.nr + 1) 0 s.st).2 := by
            unfold serveStep at hout ⊢
            simp only at hout ⊢
            generalize setLoop c (c.nr + n) (quotaEnv quota s.used d) (c.nr + 1) 0 s.st = r at hout
            obtain ⟨p, t⟩ := r
            cases p <;> simp at hout ⊢
          obtain ⟨d', g1, g2, g3, g4, g5⟩ := hb hset.1
          have hst : (serveStep c quota s (.ask n d)).st = { s.st with next := (s.st.next + d' + 1) % c.nr } := by
            rw [hset.2, g2]
          have hd' : d' < δ := by
            apply Decidable.byContradiction
            intro hn
            by_cases e : d' = δ
            · subst e; rw [hx, hxo] at g5; cases g5
            · obtain ⟨o, hun⟩ := g4 δ (by omega)
              rw [hx] at hun
              rcases hun with h | ⟨_, h⟩ | ⟨h, _⟩
              · rw [hxd] at h; cases h
              · rw [hxc] at h; cases h
              · rw [hxo] at h; cases h
          refine ih (δ - d' - 1) (by omega) as (serveStep c quota s (.ask n d)) x hsi' ?_ ?_ ?_ ?_ ?_ ?_ (by omega)
            (fun e h => hok e (by simp [h])) (fun e h => hask e (by simp [h])) ?_
          · rw [hst]; exact hl
          · rw [hst]; exact hz
          · rw [hst]; exact hxo
          · rw [hst]; exact hxc
          · rw [hst]; exact hxd
          · rw [hst]
            show ((s.st.next + d' + 1) % c.nr + (δ - d' - 1)) % c.nr = x
            rw [Nat.mod_add_mod, show s.st.next + d' + 1 + (δ - d' - 1) = s.st.next + δ by omega]
            exact hx
          · rw [hout]; exact heq
  have hsi := serve_inv hu es _ (start_inv hn quota) he
  have hl := lim es _ (start_inv hn quota) (Nat.zero_le _) he
  -- is there an open file?
  by_cases hop : 0 < (serve c quota .start es).st.nrOpen
  · rw [hsi.inv.cnt] at hop
    obtain ⟨x, hx, hxo⟩ := cnt_ex hop
    have hxc : ((serve c quota .start es).st.files x).closing = false := by
      cases hcl : ((serve c quota .start es).st.files x).closing with
      | false => rfl
      | true =>
        have h4 := (hsi.inv.file x).2.1 hxo
        rw [hcl, hz x] at h4
        simp at h4; omega
    have hxd : ((serve c quota .start es).st.files x).done = false := by
      cases hd : ((serve c quota .start es).st.files x).done with
      | false => rfl
      | true => have := hsi.done.shut x hd hxo; rw [hxc] at this; cases this
    obtain ⟨δ, h1, h2⟩ := mod_surj hsi.inv.next hx
    have := key δ as _ x hsi hl hz hxo hxc hxd h2 (by omega) ha hask
    rwa [hlen] at this
  · intro heq
    cases as with
    | nil => simp at hlen; omega
    | cons a as =>
      cases a with
      | put i => have := hask (.put i) (by simp); cases this
      | ask n d =>
        have hg := fun k => quota_good (quota := quota) (used := (serve c quota .start es).used)
          (ha (.ask n d) (by simp)) k
        have hb := (set_nobusy hs hg (n := c.nr + n) (by omega)
          (by intro k i; simp only [quotaEnv]; split <;> simp) (c.nr + 1) 0 _ hsi.inv hz).1 (by omega)
        obtain ⟨l, h1, h2⟩ := more as (serveStep c quota (serve c quota .start es) (.ask n d))
          (fun e h => hask e (by simp [h]))
        have hl' : c.nr = l.length + 1 := by rw [h2, ← hlen]; simp
        rw [show serve c quota (serve c quota .start es) (.ask n d :: as) =
          serve c quota (serveStep c quota (serve c quota .start es) (.ask n d)) as from rfl, h1, hl',
          List.replicate_succ', List.append_assoc] at heq
        have hout : (serveStep c quota (serve c quota .start es) (.ask n d)).out =
            .busy :: (serve c quota .start es).out := by
          have := List.append_inj_right heq (by simp)
          simpa using this
        unfold serveStep at hout
        simp only at hout
        generalize setLoop c (c.nr + n) (quotaEnv quota (serve c quota .start es).used d) (c.nr + 1) 0
          (serve c quota .start es).st = r at hout hb
        obtain ⟨p, t⟩ := r
        cases p <;> simp at hout hb

end Fio.Files
