import Verif.Uring.Lemmas

namespace Fio.Uring

open Spec

theorem queue_inv {s : St} (h : Inv s 0 0) (sync : Bool) (u : Nat) (hu : u < s.ld.depth) (hn : u ∉ out s) :
    ∃ s' st, queue s sync u = .ok (s', st) ∧ Inv s' 0 0 ∧ s'.acc = s.acc ++ (if st = .queued then [u] else []) ∧
      (st = .queued ↔ s.ld.queued ≠ s.ld.depth ∧ sync = false) := by
  unfold queue
  by_cases hb : s.ld.queued = s.ld.depth
  · rw [if_pos hb]
    exact ⟨s, .busy, rfl, h, by simp, by simp [hb]⟩
  · rw [if_neg hb]
    cases sync with
    | true =>
      simp only [if_true]
      by_cases hq : s.ld.queued ≠ 0
      · rw [if_pos hq]; exact ⟨s, .busy, rfl, h, by simp, by simp⟩
      · rw [if_neg hq]; exact ⟨s, .completed, rfl, h, by simp, by simp⟩
    | false =>
      have hmask : s.ld.sqTail &&& (s.ld.sqn - 1) = s.acc.length % s.ld.sqn := by rw [h.tail, h.sqmask]
      rw [if_neg (by simp), if_pos (by rw [hmask, h.alen]; exact Nat.mod_lt _ h.sqn_lt.1)]
      refine ⟨_, .queued, rfl, ?_, by simp, by simp [hb]⟩
      have hsl := h.sublen
      have hdrop : (s.acc ++ [u]).drop s.sub.length = s.acc.drop s.sub.length ++ [u] := by
        rw [List.drop_append_of_le_length hsl]
      have hperm : (s.acc.drop s.sub.length ++ [u] ++ s.fly ++ (s.posted.drop s.nread).map (·.1) ++ s.lost.map (·.1)).Perm
          (u :: out s) := by
        unfold out
        simp only [List.append_assoc, List.singleton_append]
        exact List.perm_middle
      have hqd := h.qd
      have hqa := h.qa
      constructor
      case sqp => exact h.sqp
      case cqp => exact h.cqp
      case dsq => exact h.dsq
      case dcq => exact h.dcq
      case alen => dsimp only; rw [List.length_set]; exact h.alen
      case clen => exact h.clen
      case pre => exact h.pre.trans (List.prefix_append _ _)
      case tail => dsimp only; rw [h.tail, u32_succ]; simp
      case head => exact h.head
      case arr =>
        dsimp only
        rw [hmask]
        exact ring_write h.sqn_lt.1 h.alen h.arr _
      case q =>
        intro hp
        have := h.q hp
        dsimp only
        simp only [List.length_append, List.length_singleton]
        omega
      case qd => dsimp only; omega
      case qa => dsimp only; simp; omega
      case iss =>
        dsimp only
        rw [h.iss, show (s.acc ++ [u]).length - (s.ld.queued + 1) = s.acc.length - s.ld.queued from by simp,
          List.take_append_of_le_length (by omega)]
      case ctail => exact h.ctail
      case chead => exact h.chead
      case cle => exact h.cle
      case cqe => exact h.cqe
      case flow => exact h.flow
      case hand => exact h.hand
      case exact => exact h.exact
      case nodup =>
        unfold out
        dsimp only
        rw [hdrop, hperm.nodup_iff]
        exact List.nodup_cons.2 ⟨hn, h.nodup⟩
      case lt =>
        unfold out
        dsimp only
        rw [hdrop]
        intro x hx
        rcases List.mem_cons.1 (hperm.mem_iff.1 hx) with rfl | hx
        · exact hu
        · exact h.lt x hx

theorem mark_eq {ld : Ld} {acc : List Nat} (hp : Pow2 ld.sqn)
    (harr : ∀ j u, acc.length ≤ j + ld.sqn → acc[j]? = some u → ld.array[j % ld.sqn]? = some u) (n : Nat) :
    ∀ j, acc.length ≤ j + ld.sqn → j + n ≤ acc.length → mark ld (u32 j) n = some ((acc.drop j).take n) := by
  obtain ⟨k, hk, he⟩ := hp
  induction n with
  | zero => intro j _ _; simp [mark]
  | succ n ih =>
    intro j h1 h2
    unfold mark
    rw [u32_mask hk j he]
    have hget : acc[j]? = some acc[j] := by simp
    rw [harr j _ h1 hget]
    dsimp only
    rw [u32_succ, ih (j + 1) (by omega) (by omega)]
    rw [drop_head hget, List.take_succ_cons]
    rfl

theorem reap_none {ld : Ld} {max : Nat} (h : sub32 ld.cqTail ld.cqHead = 0) : reap ld max = (ld, 0) := by
  unfold reap
  rw [if_pos h]

theorem reap_some {ld : Ld} {max n : Nat} (h : sub32 ld.cqTail ld.cqHead = n) (hn : n ≠ 0) :
    reap ld max = ({ ld with cqHead := u32 (ld.cqHead + min n max) }, min n max) := by
  subst h
  unfold reap
  rw [if_neg hn]

theorem reap_inv {s : St} {e d : Nat} (h : Inv s e d) (max : Nat) :
    ∃ ld n, reap s.ld max = (ld, n) ∧ Inv { s with ld := ld } (e + n) d ∧ n = min (s.posted.length - (s.nread + e)) max ∧
      ld.queued = s.ld.queued ∧ ld.sqpoll = s.ld.sqpoll ∧ ld.off = s.ld.off ∧ ld.depth = s.ld.depth := by
  have hc := h.cqcount
  by_cases h0 : s.posted.length - (s.nread + e) = 0
  · rw [h0] at hc
    refine ⟨s.ld, 0, reap_none hc, ?_, by omega, rfl, rfl, rfl, rfl⟩
    rw [Nat.add_zero]
    exact h
  · refine ⟨_, _, reap_some hc h0, ?_, rfl, rfl, rfl, rfl, rfl⟩
    have hcle := h.cle
    generalize hk : min (s.posted.length - (s.nread + e)) max = k
    have hk' : k ≤ s.posted.length - (s.nread + e) := by omega
    constructor
    case sqp => exact h.sqp
    case cqp => exact h.cqp
    case dsq => exact h.dsq
    case dcq => exact h.dcq
    case alen => exact h.alen
    case clen => exact h.clen
    case pre => exact h.pre
    case tail => exact h.tail
    case head => exact h.head
    case arr => exact h.arr
    case q => exact h.q
    case qd => exact h.qd
    case qa => exact h.qa
    case iss => exact h.iss
    case ctail => exact h.ctail
    case chead =>
      dsimp only
      rw [h.chead, u32_add, Nat.add_assoc]
    case cle => dsimp only; omega
    case cqe => exact h.cqe
    case flow => exact h.flow
    case hand => exact h.hand
    case exact => exact h.exact
    case nodup => exact h.nodup
    case lt => exact h.lt

theorem take_split {α : Type} (l : List α) (n k : Nat) : l.take (n + k) = l.take n ++ (l.drop n).take k := by
  rw [List.take_add]

theorem drop_inv {s : St} {e d : Nat} (h : Inv s e d) : Inv (drop s e) 0 d := by
  have hcle := h.cle
  have hsplit : s.posted.drop s.nread = (s.posted.drop s.nread).take e ++ s.posted.drop (s.nread + e) := by
    rw [← List.drop_drop, List.take_append_drop]
  have hperm : (out s).Perm (out (drop s e)) := by
    unfold out drop
    dsimp only
    conv => lhs; rw [hsplit]
    simp only [List.map_append, List.append_assoc]
    apply List.Perm.append_left
    apply List.Perm.append_left
    rw [← List.append_assoc]
    refine (List.perm_append_comm).append_right _ |>.trans ?_
    rw [List.append_assoc]
    exact List.perm_append_comm.append_left _
  constructor
  case sqp => exact h.sqp
  case cqp => exact h.cqp
  case dsq => exact h.dsq
  case dcq => exact h.dcq
  case alen => exact h.alen
  case clen => exact h.clen
  case pre => exact h.pre
  case tail => exact h.tail
  case head => exact h.head
  case arr => exact h.arr
  case q => exact h.q
  case qd => exact h.qd
  case qa => exact h.qa
  case iss => exact h.iss
  case ctail => exact h.ctail
  case chead => exact h.chead
  case cle => exact hcle
  case cqe => exact h.cqe
  case flow => exact h.flow
  case hand =>
    unfold drop
    dsimp only
    rw [take_split, ← List.append_assoc]
    exact h.hand.append_right _
  case exact =>
    unfold drop
    dsimp only
    intro hl
    rw [List.append_eq_nil_iff] at hl
    rw [take_split, hl.2, List.append_nil]
    exact h.exact hl.1
  case nodup => exact hperm.nodup_iff.1 h.nodup
  case lt => exact fun x hx => h.lt x (hperm.mem_iff.2 hx)

theorem drop_fields (s : St) (n : Nat) : (drop s n).ld = s.ld ∧ (drop s n).acc = s.acc ∧ (drop s n).sub = s.sub ∧
    (drop s n).issued = s.issued ∧ (drop s n).fly = s.fly ∧ (drop s n).posted = s.posted ∧ (drop s n).back = s.back :=
  ⟨rfl, rfl, rfl, rfl, rfl, rfl, rfl⟩

/-- After the kernel has taken `n` units and they have been marked. -/
theorem marked_inv {s : St} {n : Nat} (h : Inv s 0 0) (hp : s.ld.sqpoll = false) (hn : n ≤ s.ld.queued) :
    ∃ us, mark (take n s).ld s.ld.sqHead n = some us ∧
      Inv { take n s with
        ld := { (take n s).ld with queued := (take n s).ld.queued - n }
        issued := (take n s).issued ++ us } 0 0 ∧ (take n s).acc = s.acc ∧
      (take n s).ld.queued = s.ld.queued ∧ (take n s).ld.sqpoll = false := by
  have hq := h.q hp
  have hsl := h.sublen
  obtain ⟨t1, t2, t3, t4, t5, t6, t7⟩ := take_inv h (n := n) (by omega)
  have hol := h.outlen
  have hdsq := h.dsq
  have hmark := mark_eq t1.sqp t1.arr n s.sub.length (by rw [t2, t4]; dsimp only; omega) (by rw [t2]; omega)
  refine ⟨_, by rw [h.head]; exact hmark, ?_, t2, by rw [t4], by rw [t4]; exact hp⟩
  have hqq : (take n s).ld.queued = s.ld.queued := by rw [t4]
  have hq1 := t1.q (by rw [t4]; exact hp)
  have hqd := t1.qd
  have hqa := t1.qa
  constructor
  case sqp => exact t1.sqp
  case cqp => exact t1.cqp
  case dsq => exact t1.dsq
  case dcq => exact t1.dcq
  case alen => exact t1.alen
  case clen => exact t1.clen
  case pre => exact t1.pre
  case tail => exact t1.tail
  case head => exact t1.head
  case arr => exact t1.arr
  case q => intro _; dsimp only; omega
  case qd => dsimp only; omega
  case qa => dsimp only; omega
  case iss =>
    dsimp only
    rw [t7, h.iss, t2, hqq]
    rw [show s.acc.length - (s.ld.queued - n) = (s.acc.length - s.ld.queued) + n from by omega, take_split]
    rw [show s.acc.length - s.ld.queued = s.sub.length from by omega]
  case ctail => exact t1.ctail
  case chead => exact t1.chead
  case cle => exact t1.cle
  case cqe => exact t1.cqe
  case flow => exact t1.flow
  case hand => exact t1.hand
  case exact => exact t1.exact
  case nodup => exact t1.nodup
  case lt => exact t1.lt

theorem tookStep_inv {s : St} (h : Inv s 0 0) (hp : s.ld.sqpoll = false) (n : Nat) :
    ∃ s', tookStep s n = some s' ∧ Inv s' 0 0 ∧ s'.acc = s.acc ∧ s'.ld.sqpoll = false ∧
      s'.ld.queued = s.ld.queued - min n s.ld.queued := by
  unfold tookStep
  dsimp only
  by_cases hn : min n s.ld.queued > 0
  · rw [if_pos hn]
    obtain ⟨us, m1, m2, m3, m4, m5⟩ := marked_inv h hp (n := min n s.ld.queued) (by omega)
    rw [m1]
    exact ⟨_, rfl, m2, m3, m5, by dsimp only; rw [m4]⟩
  · rw [if_neg hn]
    exact ⟨s, rfl, h, rfl, hp, by omega⟩

theorem againStep_inv {s : St} (h : Inv s 0 0) :
    Inv (againStep s) 0 0 ∧ (againStep s).acc = s.acc ∧ (againStep s).ld.sqpoll = s.ld.sqpoll ∧
      (againStep s).ld.queued = s.ld.queued := by
  obtain ⟨ld, k, r0, r1, r2, r3, r4, r5, r6⟩ := reap_inv h s.ld.queued
  have : againStep s = drop { s with ld := ld } k := by
    unfold againStep
    rw [r0]
  rw [this]
  rw [Nat.zero_add] at r1
  exact ⟨drop_inv r1, rfl, r4, r3⟩

theorem commitLoop_inv (as : List (List (Nat × Int) × SRes)) :
    ∀ {s : St}, Inv s 0 0 → s.ld.sqpoll = false → s.ld.queued ≠ 0 →
      (commitLoop as s = .running) ∨ ∃ s' r, commitLoop as s = .ok (s', r) ∧ Inv s' 0 0 ∧ s'.acc = s.acc ∧
        (r = 0 ↔ s'.ld.queued = 0) := by
  induction as with
  | nil => intro s _ _ _; exact Or.inl (by simp [commitLoop])
  | cons a as ih =>
    intro s h hp hq
    obtain ⟨ps, a⟩ := a
    obtain ⟨p1, p2, p3, p4, p5, p6, p7, p8, p9, p10⟩ := posts_inv h ps
    have hp' : (posts s ps).ld.sqpoll = false := by rw [p7]; exact hp
    cases a with
    | took n =>
      obtain ⟨s', t1, t2, t3, t4, t5⟩ := tookStep_inv p1 hp' n
      unfold commitLoop
      rw [t1]
      dsimp only
      by_cases hz : s'.ld.queued ≠ 0
      · rw [if_pos hz]
        rcases ih t2 t4 hz with hr | ⟨s2, r, e1, e2, e3, e4⟩
        · exact Or.inl hr
        · exact Or.inr ⟨s2, r, e1, e2, by rw [e3, t3, p2], e4⟩
      · rw [if_neg hz]
        exact Or.inr ⟨s', 0, rfl, t2, by rw [t3, p2], by simp; omega⟩
    | again =>
      obtain ⟨t2, t3, t4, t5⟩ := againStep_inv p1
      unfold commitLoop
      dsimp only
      have hz : (againStep (posts s ps)).ld.queued ≠ 0 := by rw [t5, p4]; exact hq
      rw [if_pos hz]
      rcases ih t2 (by rw [t4, hp']) hz with hr | ⟨s2, r, e1, e2, e3, e4⟩
      · exact Or.inl hr
      · exact Or.inr ⟨s2, r, e1, e2, by rw [e3, t3, p2], e4⟩
    | err e =>
      unfold commitLoop
      refine Or.inr ⟨_, _, rfl, p1, p2, ?_⟩
      rw [p4]
      constructor
      · intro hr; omega
      · intro hr; exact absurd hr hq

theorem commit_inv {s : St} (h : Inv s 0 0) (as : List (List (Nat × Int) × SRes)) :
    (commit as s = .running) ∨ ∃ s' r, commit as s = .ok (s', r) ∧ Inv s' 0 0 ∧ s'.acc = s.acc ∧ (r = 0 ↔ s'.ld.queued = 0) := by
  unfold commit
  by_cases h0 : s.ld.queued = 0
  · rw [if_pos h0]
    exact Or.inr ⟨s, 0, rfl, h, rfl, by simp [h0]⟩
  · rw [if_neg h0]
    cases hp : s.ld.sqpoll with
    | false =>
      simp only [Bool.false_eq_true, if_false]
      exact commitLoop_inv as h hp h0
    | true =>
      simp only [if_true]
      have hqa := h.qa
      have hqd := h.qd
      have hdsq := h.dsq
      have hlt := h.sqn_lt
      have hstart : sub32 s.ld.sqTail s.ld.queued = u32 (s.acc.length - s.ld.queued) := by
        rw [h.tail]
        unfold sub32 u32
        omega
      have hmark := mark_eq h.sqp h.arr s.ld.queued (s.acc.length - s.ld.queued) (by omega) (by omega)
      rw [hstart, hmark]
      dsimp only
      refine Or.inr ⟨_, 0, rfl, ?_, rfl, by simp⟩
      constructor
      case sqp => exact h.sqp
      case cqp => exact h.cqp
      case dsq => exact h.dsq
      case dcq => exact h.dcq
      case alen => exact h.alen
      case clen => exact h.clen
      case pre => exact h.pre
      case tail => exact h.tail
      case head => exact h.head
      case arr => exact h.arr
      case q => intro hq; rw [hp] at hq; cases hq
      case qd => exact Nat.zero_le _
      case qa => exact Nat.zero_le _
      case iss =>
        dsimp only
        rw [h.iss, ← take_split]
        congr 1
        omega
      case ctail => exact h.ctail
      case chead => exact h.chead
      case cle => exact h.cle
      case cqe => exact h.cqe
      case flow => exact h.flow
      case hand => exact h.hand
      case exact => exact h.exact
      case nodup => exact h.nodup
      case lt => exact h.lt

theorem reapStep_inv {s : St} {e d : Nat} (h : Inv s e d) (max : Nat) :
    ∃ s' n, reapStep s max = (s', n) ∧ Inv s' (e + n) d ∧ n = min (s.posted.length - (s.nread + e)) max ∧
      s'.ld.sqpoll = s.ld.sqpoll ∧ s'.ld.off = s.ld.off ∧ s'.acc = s.acc ∧ s'.nread = s.nread ∧ s'.fly = s.fly ∧
      s'.posted = s.posted ∧ s'.back = s.back := by
  obtain ⟨ld, n, r0, r1, r2, r3, r4, r5, r6⟩ := reap_inv h max
  refine ⟨{ s with ld := ld }, n, ?_, r1, r2, r4, r5, rfl, rfl, rfl, rfl, rfl⟩
  unfold reapStep
  rw [r0]

theorem nextMin_le {amin e n min : Nat} (hmin : min < 2 ^ 32) (h : amin = 0 ∨ amin + e = min) (hn : n = 0 ∨ e + n < min) :
    nextMin amin n = 0 ∨ nextMin amin n + (e + n) = min := by
  unfold nextMin
  by_cases h0 : n ≠ 0 ∧ amin ≠ 0
  · rw [if_pos h0]
    unfold sub32
    omega
  · rw [if_neg h0]
    omega

/-- What the loop of `fio_ioring_getevents` can lead to. -/
def GetOk (s : St) (min max e : Nat) : Res (St × Out) → Prop
  | .crash => False
  | .blocked => s.ld.sqpoll = false ∧ s.fly.length + (s.posted.length - s.nread) < min
  | .running => True
  | .ok (s', .error _) => Inv s' 0 0 ∧ s'.acc = s.acc
  | .ok (s', .events n) => Inv s' n 0 ∧ s'.acc = s.acc ∧ s'.ld.off = s.ld.off ∧ s'.nread = s.nread ∧ s'.back = s.back ∧
      min ≤ n ∧ 1 ≤ n ∧ (e ≤ max → n ≤ max)

theorem getLoop_inv (min max : Nat) (hmin : min < 2 ^ 32) (gs : List (List (Nat × Int) × GRes)) :
    ∀ {s : St} {e amin : Nat}, Inv s e 0 → (amin = 0 ∨ amin + e = min) → (e = 0 ∨ e < min) →
      GetOk s min max e (getLoop min max gs s e amin) := by
  induction gs with
  | nil => intro s e amin _ _ _; simp [getLoop, GetOk]
  | cons g gs ih =>
    intro s e amin h ham he
    obtain ⟨ps, g⟩ := g
    obtain ⟨p1, p2, p3, p4, p5, p6, p7, p8, p9, p10⟩ := posts_inv h ps
    have pf := posts_fly s ps
    obtain ⟨t, n, r0, r1, r2, r3, r4, r5, r6, r7, r8, r9⟩ := reapStep_inv p1 (max - e)
    have hcle := r1.cle
    have hcle0 := h.cle
    have hmono : s.posted.length ≤ t.posted.length := by
      rw [r8]
      clear r0 r1 r2 r3 r4 r5 r6 r7 r8 r9 pf p1 p2 p3 p4 p5 p6 p7 p8 p9 p10 hcle hcle0 he ham h t n
      unfold posts
      induction ps generalizing s with
      | nil => simp
      | cons p ps ihp =>
        simp only [List.foldl_cons]
        refine Nat.le_trans ?_ (ihp (s := post s p))
        unfold post
        split
        · exact Nat.le_refl _
        · split
          · exact Nat.le_refl _
          · dsimp only; simp
    have hpend : t.fly.length + (t.posted.length - t.nread) = s.fly.length + (s.posted.length - s.nread) := by
      rw [r7, r8, r6, p6]
      rw [r8] at hmono
      omega
    unfold getLoop
    rw [r0]
    unfold getBody
    dsimp only
    by_cases hd : n ≠ 0 ∧ e + n ≥ min
    · rw [if_pos hd]
      refine ⟨r1, r5.trans p2, r4.trans p5, r6.trans p6, r9.trans p9, hd.2, by omega, fun _ => by omega⟩
    · rw [if_neg hd]
      have hn : n = 0 ∨ e + n < min := by
        by_cases h0 : n = 0
        · exact Or.inl h0
        · exact Or.inr (by
            by_cases h1 : e + n ≥ min
            · exact absurd ⟨h0, h1⟩ hd
            · omega)
      have hnm := nextMin_le hmin ham hn
      have hen : e + n = 0 ∨ e + n < min := by omega
      have hrec := ih (s := t) (e := e + n) (amin := nextMin amin n) r1 hnm hen
      have hconv : GetOk s min max e (getLoop min max gs t (e + n) (nextMin amin n)) := by
        revert hrec
        generalize getLoop min max gs t (e + n) (nextMin amin n) = r
        intro hrec
        cases r with
        | crash => exact hrec
        | running => exact trivial
        | blocked =>
          obtain ⟨h1, h2⟩ := hrec
          exact ⟨by rw [← p7, ← r3]; exact h1, by omega⟩
        | ok x =>
          obtain ⟨s', o⟩ := x
          cases o with
          | error _ => exact ⟨hrec.1, by rw [hrec.2, r5, p2]⟩
          | events m =>
            obtain ⟨g1, g2, g3, g4, g5, g6, g7, g8⟩ := hrec
            exact ⟨g1, by rw [g2, r5, p2], by rw [g3, r4, p5], by rw [g4, r6, p6], by rw [g5, r9, p9], g6, g7,
              fun hm => g8 (by omega)⟩
      cases hsp : t.ld.sqpoll with
      | true =>
        simp only [if_true]
        exact hconv
      | false =>
        simp only [Bool.false_eq_true, if_false]
        unfold starved
        rw [r1.cqcount]
        by_cases hb : nextMin amin n > t.fly.length + (t.posted.length - (t.nread + (e + n)))
        · rw [if_pos (decide_eq_true hb)]
          refine ⟨by rw [← p7, ← r3]; exact hsp, ?_⟩
          omega
        · rw [if_neg (by simpa using hb)]
          cases g with
          | ok => exact hconv
          | again => exact hconv
          | err er =>
            refine ⟨drop_inv r1, ?_⟩
            show t.acc = s.acc
            rw [r5, p2]

theorem setOff_inv {s : St} (h : Inv s 0 0) (off : Nat) : Inv { s with ld := { s.ld with off := off } } 0 0 := by
  constructor
  case sqp => exact h.sqp
  case cqp => exact h.cqp
  case dsq => exact h.dsq
  case dcq => exact h.dcq
  case alen => exact h.alen
  case clen => exact h.clen
  case pre => exact h.pre
  case tail => exact h.tail
  case head => exact h.head
  case arr => exact h.arr
  case q => exact h.q
  case qd => exact h.qd
  case qa => exact h.qa
  case iss => exact h.iss
  case ctail => exact h.ctail
  case chead => exact h.chead
  case cle => exact h.cle
  case cqe => exact h.cqe
  case flow => exact h.flow
  case hand => exact h.hand
  case exact => exact h.exact
  case nodup => exact h.nodup
  case lt => exact h.lt

theorem getevents_inv {s : St} (h : Inv s 0 0) (bcm min max : Nat) (hmin : min < 2 ^ 32) (gs : List (List (Nat × Int) × GRes)) :
    GetOk { s with ld := { s.ld with off := s.ld.cqHead } } min max 0 (getevents bcm min max gs s) := by
  unfold getevents
  apply getLoop_inv min max hmin gs (setOff_inv h _)
  · split
    · exact Or.inl rfl
    · exact Or.inr (by omega)
  · exact Or.inl rfl

/-- The job sees exactly the completions consumed. -/
theorem readEvents_eq {s : St} {e : Nat} (h : Inv s e 0) (hoff : s.ld.off = u32 s.nread) (n : Nat) (hn : n ≤ e) :
    readEvents s n = some ((s.posted.drop s.nread).take n) := by
  have hcle := h.cle
  have hol := h.outlen
  have hdcq := h.dcq
  induction n with
  | zero => simp [readEvents]
  | succ n ih =>
    have hget : s.posted[s.nread + n]? = some s.posted[s.nread + n] := by simp
    have hev : event s.ld n = some s.posted[s.nread + n] := by
      unfold event
      rw [hoff, Nat.add_comm, u32_add, h.cqmask]
      exact h.cqe _ _ (by omega) hget
    unfold readEvents
    rw [ih (by omega), hev]
    dsimp only
    rw [List.take_add_one, List.getElem?_drop, hget]
    rfl

theorem read_inv {s : St} {n : Nat} (h : Inv s n 0) :
    Inv { s with back := s.back ++ (s.posted.drop s.nread).take n, nread := s.nread + n } 0 0 := by
  have hcle := h.cle
  have hsub : (out { s with back := s.back ++ (s.posted.drop s.nread).take n, nread := s.nread + n }).Sublist (out s) := by
    unfold out
    dsimp only
    refine List.Sublist.append ?_ (List.Sublist.refl _)
    refine List.Sublist.append (List.Sublist.refl _) ?_
    rw [← List.drop_drop]
    exact (List.drop_sublist _ _).map _
  constructor
  case sqp => exact h.sqp
  case cqp => exact h.cqp
  case dsq => exact h.dsq
  case dcq => exact h.dcq
  case alen => exact h.alen
  case clen => exact h.clen
  case pre => exact h.pre
  case tail => exact h.tail
  case head => exact h.head
  case arr => exact h.arr
  case q => exact h.q
  case qd => exact h.qd
  case qa => exact h.qa
  case iss => exact h.iss
  case ctail => exact h.ctail
  case chead => exact h.chead
  case cle => exact hcle
  case cqe => exact h.cqe
  case flow => exact h.flow
  case hand =>
    dsimp only
    rw [take_split]
    have hh := h.hand.append_right ((s.posted.drop s.nread).take n)
    refine List.Perm.trans ?_ hh
    rw [List.append_assoc, List.append_assoc]
    exact List.perm_append_comm.append_left _
  case exact =>
    dsimp only
    intro hl
    rw [take_split, h.exact hl]
  case nodup => exact h.nodup.sublist hsub
  case lt => exact fun x hx => h.lt x (hsub.subset hx)

end Fio.Uring
