/-
Sums of a quantity over a list of records, and how they change when one record is replaced.
-/
namespace Fio

variable {α : Type}

/-- Sum over all records. -/
def total (f : α → Nat) (l : List α) : Nat := (l.map f).sum

theorem total_set (f : α → Nat) : ∀ (jobs : List α) (j : Nat) (t t' : α), jobs[j]? = some t →
    total f (jobs.set j t') + f t = total f jobs + f t'
  | [], j, t, t', h => by simp at h
  | x :: xs, 0, t, t', h => by
    simp only [List.getElem?_cons_zero, Option.some.injEq] at h
    subst h
    simp [total]; omega
  | x :: xs, j + 1, t, t', h => by
    simp only [List.getElem?_cons_succ] at h
    have := total_set f xs j t t' h
    simp only [total, List.set_cons_succ, List.map_cons, List.sum_cons] at *
    omega

theorem le_total (f : α → Nat) : ∀ (jobs : List α) (j : Nat) (t : α), jobs[j]? = some t →
    f t ≤ total f jobs
  | [], j, t, h => by simp at h
  | x :: xs, 0, t, h => by
    simp only [List.getElem?_cons_zero, Option.some.injEq] at h
    subst h
    simp [total]
  | x :: xs, j + 1, t, h => by
    simp only [List.getElem?_cons_succ] at h
    have := le_total f xs j t h
    simp only [total, List.map_cons, List.sum_cons] at *
    omega

theorem total_zero {f : α → Nat} : ∀ {jobs : List α}, (∀ t ∈ jobs, f t = 0) → total f jobs = 0
  | [], _ => rfl
  | x :: xs, h => by
    have := total_zero (f := f) (jobs := xs) (fun t ht => h t (by simp [ht]))
    simp only [total, List.map_cons, List.sum_cons] at *
    rw [h x (by simp)]; omega

theorem exists_of_total_pos {f : α → Nat} {jobs : List α} (h : 0 < total f jobs) :
    ∃ t ∈ jobs, 0 < f t := by
  apply Classical.byContradiction
  intro hn
  have := total_zero (f := f) (jobs := jobs) (fun t ht => by
    apply Classical.byContradiction
    intro h0; exact hn ⟨t, ht, by omega⟩)
  omega


theorem mem_set_cases {t t' : α} {l : List α} {j : Nat} (h : t ∈ l.set j t') : t ∈ l ∨ t = t' :=
  List.mem_or_eq_of_mem_set h

end Fio
