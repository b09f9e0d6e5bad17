import Verif.RunStr.Model
/-!
# What these strings say (C107)
-/

namespace Fio.RunStr

/-- The number that a string of digits says. -/
def value (l : List Char) : Nat := l.foldl (fun n c => 10 * n + (c.toNat - 48)) 0

def Digits (l : List Char) : Prop := l ≠ [] ∧ ∀ c ∈ l, 48 ≤ c.toNat ∧ c.toNat ≤ 57

/-- What a condensed string says: groups of a state and in brackets how many jobs have it, one behind the other, with commas. -/
inductive Says : List Char → List Char → Prop
  | none : Says [] []
  | last (c : Char) (ds : List Char) : Digits ds → Says (c :: '(' :: (ds ++ [')'])) (List.replicate (value ds) c)
  | more (c : Char) (ds out s : List Char) : Digits ds → out ≠ [] → Says out s →
      Says (c :: '(' :: (ds ++ ')' :: ',' :: out)) (List.replicate (value ds) c ++ s)

/-- What a time says: seconds, and before them minutes, hours, days. -/
inductive Time : List Char → Nat → Prop
  | ms (m s : List Char) : Digits m → Digits s → Time (m ++ ['m', ':'] ++ (s ++ ['s'])) (60 * value m + value s)
  | hour (h out : List Char) (n : Nat) : Digits h → n < 3600 → Time out n → Time (h ++ ['h', ':'] ++ out) (3600 * value h + n)
  | day (d out : List Char) (n : Nat) : Digits d → n < 86400 → Time out n → Time (d ++ ['d', ':'] ++ out) (86400 * value d + n)

end Fio.RunStr
