/-!
# The string with the states of the jobs, and times (eta.c)

A string is the list of its characters up to the terminating 0.
-/

namespace Fio.RunStr

/-- Character of a digit (of `printf`, C library). -/
def digit (d : Nat) : Char := Char.ofNat (48 + d)

/-- `%u` of `printf` (C library). -/
def dec (n : Nat) : List Char := if n < 10 then [digit n] else dec (n / 10) ++ [digit (n % 10)]
  termination_by n
  decreasing_by omega

/-- `%02u` of `printf` (C library). -/
def dec2 (n : Nat) : List Char := if n < 10 then ['0', digit n] else dec n

theorem length_dropWhile (p : Char → Bool) (l : List Char) : (l.dropWhile p).length ≤ l.length := by
  induction l with
  | nil => simp
  | cons a l ih => rw [List.dropWhile_cons]; split <;> simp <;> omega

/-- /repo/eta.c:22-31, the loop of `update_condensed_str`: a state, how many have it, and a comma -/
def loop : List Char → List Char
  | [] => []
  | c :: r => c :: ('(' :: dec (1 + (r.takeWhile (· == c)).length) ++ [')', ',']) ++ loop (r.dropWhile (· == c))
  termination_by s => s.length
  decreasing_by have := length_dropWhile (· == c) r; simp; omega

/-- /repo/eta.c:19-35 `update_condensed_str`: the last comma is taken off -/
def condense (s : List Char) : List Char := if s = [] then [] else (loop s).dropLast

/-- How much of the buffer is written on the way: everything with the last comma, and the 0 of `sprintf` behind it (/repo/eta.c:30) -/
def written (s : List Char) : Nat := (loop s).length + 1

/-- /repo/stat.h:438 `__THREAD_RUNSTR_SZ` -/
def runstrSz (nr : Nat) : Nat := nr * 5

/-- /repo/eta.c:126-155 `eta_to_str`; `unsigned int` has 32 bits, `unsigned long` 64 -/
def etaToStr (sec : Nat) : List Char :=
  if sec = 2 ^ 64 - 1 then ['-', '-']
  else
    let s := sec % 60
    let m := sec / 60 % 60
    let h := sec / 60 / 60 % 24
    let d := sec / 60 / 60 / 24 % 2 ^ 32
    (if d ≠ 0 then dec2 d ++ ['d', ':'] else []) ++ (if h ≠ 0 ∨ d ≠ 0 then dec2 h ++ ['h', ':'] else []) ++ (dec2 m ++ ['m', ':']) ++
      (dec2 s ++ ['s'])

end Fio.RunStr
