import Verif.Sub.Model
/-!
# What the text of an option means
-/

namespace Fio.Sub.Spec

open Fio.Ini (Str)

/-- Variables replaced by their values (nothing if not set), the rest as it is. -/
inductive Subst (env : Str → Option Str) : Str → Str → Prop
  | nil : Subst env [] []
  | var (name t out : Str) (hn : '}' ∉ name) (h : Subst env t out) :
      Subst env ("${".toList ++ name ++ "}".toList ++ t) ((env name).getD [] ++ out)
  | lit (c : Char) (t out : Str) (hc : ¬ ∃ name r, '}' ∉ name ∧ c :: t = "${".toList ++ name ++ "}".toList ++ r) (h : Subst env t out) :
      Subst env (c :: t) (c :: out)

/-- Keywords replaced by their values wherever they stand; `k` characters are still to be left out. -/
def expand (kws : List (Str × Str)) : Nat → Str → Str
  | _, [] => []
  | k + 1, _ :: t => expand kws k t
  | 0, c :: t =>
    match kws.find? (fun kv => kv.1.isPrefixOf (c :: t)) with
    | some (w, v) => v ++ expand kws (w.length - 1) t
    | none => c :: expand kws 0 t

/-- Keywords as fio has them: a `$` and letters; values have other characters, and are not longer. -/
structure Kws (kws : List (Str × Str)) : Prop where
  dollar : ∀ kv ∈ kws, ∃ w, kv.1 = '$' :: w ∧ '$' ∉ w
  value : ∀ kv ∈ kws, kv.2 ≠ [] ∧ '$' ∉ kv.2 ∧ kv.2.length ≤ kv.1.length ∧ ∀ kv' ∈ kws, ∀ c ∈ kv.2, c ∉ kv'.1

/-- No keyword begins with another. -/
def Apart (kws : List (Str × Str)) : Prop := kws.Pairwise (fun a b => ¬ a.1 <+: b.1 ∧ ¬ b.1 <+: a.1)

/-- An option `name` or `name=value`. -/
structure Opt where
  name : Str
  val : Option Str
deriving DecidableEq, Repr

/-- As it is written. -/
def Opt.text (o : Opt) : Str :=
  match o.val with
  | none => o.name
  | some v => o.name ++ '=' :: v

/-- Its parts are what they seem: no NUL, no `=` or comment in the name, no blank at its end. -/
structure Opt.Ok (o : Opt) : Prop where
  nul : '\x00' ∉ o.text
  eq : '=' ∉ o.name
  comment : ';' ∉ o.name ∧ '#' ∉ o.name
  ne : o.name ≠ []
  blank : ∀ c, o.name.getLast? = some c → 32 < c.toNat ∧ c.toNat ≠ 127

end Fio.Sub.Spec
