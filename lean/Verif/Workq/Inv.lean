import Verif.Workq.InvT
namespace Fio.Workq

/-- Everything that holds in all reachable states. -/
structure Inv (n : Nat) (prog0 : List Op) (s : St) : Prop where
  a : InvA n s
  b : InvB s
  c : InvC s
  e : InvE s
  t : InvT prog0 s

theorem inv_init (n : Nat) (prog : List Op) : Inv n prog (init n prog) :=
  ⟨invA_init n prog, invB_init n prog, invC_init n prog, invE_init n prog, invT_init n prog⟩

theorem inv_spurMain {n : Nat} {prog0 : List Op} {s : St} (h : Inv n prog0 s)
    (hne : wakeMain s.pc ≠ s.pc) : Inv n prog0 (setPc s (wakeMain s.pc)) := by
  obtain ⟨hA, hB, hC, hE, hT⟩ := h
  refine ⟨?_, ?_, ?_, ?_, ?_⟩
  · obtain ⟨lkM, lkW, flM, flW, crt, rg, mx, nf, nz⟩ := hA
    constructor <;> simp only [setPc] <;> grind
  · obtain ⟨loc, idl, wt, bt, rn, er, ad, nn, su⟩ := hB
    constructor <;> simp only [setPc] <;> grind
  · obtain ⟨rdy, ini, exi, lv, dn, eq, acc, jn, sh⟩ := hC
    constructor
    case ini => exact counted_mono ini rfl (Or.inr rfl) (fun j h1 h2 => ⟨h1, h2⟩)
    all_goals simp only [setPc]
    all_goals grind
  · exact ⟨reason_wake rfl hne, by simp only [setPc]; rw [wakeMain_wakes]; exact hE.wi⟩
  · exact invT_silent hT rfl rfl (Or.inr rfl) (fun i => ⟨rfl, rfl⟩)

theorem inv_spurWk {n : Nat} {prog0 : List Op} {s : St} {i : Nat} (h : Inv n prog0 s)
    (hw : (s.w i).pc = .waiting) : Inv n prog0 (setW s i { s.w i with pc := .woken }) := by
  obtain ⟨hA, hB, hC, hE, hT⟩ := h
  refine ⟨?_, ?_, ?_, ?_, ?_⟩
  · obtain ⟨lkM, lkW, flM, flW, crt, rg, mx, nf, nz⟩ := hA
    constructor <;> simp only [setW, upd] <;> byw i
  · obtain ⟨loc, idl, wt, bt, rn, er, ad, nn, su⟩ := hB
    constructor <;> simp only [setW, upd] <;> byw i
  · obtain ⟨rdy, ini, exi, lv, dn, eq, acc, jn, sh⟩ := hC
    constructor
    case ini =>
      refine counted_mono ini rfl (Or.inl rfl) ?_
      simp only [setW, upd]; grind
    all_goals simp only [setW, upd]
    all_goals byw i
  · refine ⟨reason_mono hE.rs rfl rfl ?_ ?_ ?_ ?_, hE.wi⟩ <;> simp only [setW, upd] <;> grind
  · refine invT_silent hT rfl rfl (Or.inl rfl) ?_
    simp only [setW, upd]; grind

theorem inv_step {n : Nat} {prog0 : List Op} {s s' : St} {a : Act} (h : Inv n prog0 s)
    (hs : step s a = some s') : Inv n prog0 s' := by
  cases a with
  | run t c =>
    cases t with
    | main => exact ⟨invA_mstep h.a hs, invB_mstep h.a h.b hs, invC_mstep h.a h.b h.c hs,
        invE_mstep h.a h.b h.c h.e hs, invT_mstep h.a h.b h.c h.e h.t hs⟩
    | wk i => exact ⟨invA_wstep h.a hs, invB_wstep h.a h.b hs, invC_wstep h.a h.b h.c hs,
        invE_wstep h.a h.e hs, invT_wstep h.a h.b h.c h.t hs⟩
  | spurious t =>
    cases t with
    | main =>
      simp only [step] at hs
      split at hs
      · simp at hs
      · rename_i hne
        simp only [Option.some.injEq] at hs
        subst hs
        exact inv_spurMain h hne
    | wk i =>
      simp only [step] at hs
      split at hs
      · rename_i hw
        simp only [Option.some.injEq] at hs
        subst hs
        exact inv_spurWk h hw
      · simp at hs

theorem inv_exec {n : Nat} {prog0 : List Op} {as : List Act} :
    ∀ {s s' : St}, Inv n prog0 s → exec s as = some s' → Inv n prog0 s' := by
  induction as with
  | nil => intro s s' h hs; simp [exec] at hs; subst hs; exact h
  | cons a as ih =>
    intro s s' h hs
    simp only [exec, Option.bind_eq_some_iff] at hs
    obtain ⟨s1, h1, h2⟩ := hs
    exact ih (inv_step h h1) h2

theorem inv_reach {n : Nat} {prog : List Op} {as : List Act} {s : St}
    (hs : exec (init n prog) as = some s) : Inv n prog s := inv_exec (inv_init n prog) hs

end Fio.Workq
