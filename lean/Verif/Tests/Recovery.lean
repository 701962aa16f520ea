import Verif.Tests.Basic

/-! # `/repo/tests/test_recovery.py` (generated from its table) -/

namespace Reparsec.Tests.Recovery

open Reparsec Reparsec.Tests

set_option maxRecDepth 100000

abbrev E := P Char Empty (fun _ => Unit)

def sym (c : Char) : E String :=
  .map (.sym c ("'" ++ String.ofList [c] ++ "'")) fun c => String.ofList [c]
def join (v : String × String) : String := v.1 ++ v.2
def a := sym 'a'
def b := sym 'b'
def c := sym 'c'
def comma := sym ','
def ab : E String := .map (.seq a b) join
def cab : E String := .map (.seq c ab) join
def aba : E String := .map (.seq ab a) join
def abaa : E String := .map (.seq aba a) join
def aaba : E String := .map (.seq a aba) join
def caba : E String := .map (.seq c aba) join

def recovered {α : Type} (p : E α) (s : String) : Out (Except String α) :=
  run noEnv (.seql p .eof) s true true

example : recovered (α := String) ab "ab"
    = .ret (.ok "ab") := rfl
example : recovered (α := String) ab "_ab"
    = .ret (.ok "ab") := rfl
example : recovered (α := String) ab "_a_b"
    = .ret (.ok "ab") := rfl
example : recovered (α := String) ab "b"
    = .ret (.ok "ab") := rfl
example : recovered (α := String) ab "a"
    = .ret (.ok "ab") := rfl
example : recovered (α := String) ab "_a"
    = .ret (.ok "ab") := rfl
example : recovered (α := String) (.bind ab fun s => (.map a fun x => s ++ x)) "aba"
    = .ret (.ok "aba") := rfl
example : recovered (α := String) (.bind ab fun s => (.map a fun x => s ++ x)) "aa"
    = .ret (.ok "aba") := rfl
example : recovered (α := String) (.bind ab fun s => (.map a fun x => s ++ x)) "_a_a"
    = .ret (.ok "aba") := rfl
example : recovered (α := String) (.alt ab b) "ab"
    = .ret (.ok "ab") := rfl
example : recovered (α := String) (.alt ab b) "b"
    = .ret (.ok "b") := rfl
example : recovered (α := String) (.alt ab b) ""
    = .ret (.ok "ab") := rfl
example : recovered (α := String) (.alt ab b) "a"
    = .ret (.ok "ab") := rfl
example : recovered (α := String) (.alt ab b) "_ab"
    = .ret (.ok "ab") := rfl
example : recovered (α := String) (.alt ab b) "a_b"
    = .ret (.ok "ab") := rfl
example : recovered (α := String) (.alt ab b) "_a_b"
    = .ret (.ok "ab") := rfl
example : recovered (α := Option String) (.maybe ab) "ab"
    = .ret (.ok (some "ab")) := rfl
example : recovered (α := Option String) (.maybe ab) ""
    = .ret (.ok none) := rfl
example : recovered (α := Option String) (.maybe ab) "b"
    = .ret (.ok none) := rfl
example : recovered (α := Option String) (.maybe ab) "_ab"
    = .ret (.ok none) := rfl
example : recovered (α := Option String) (.maybe ab) "a"
    = .ret (.ok (some "ab")) := rfl
example : recovered (α := List String) (.many ab) "a"
    = .ret (.ok ["ab"]) := rfl
example : recovered (α := List String) (.many ab) "aa"
    = .ret (.ok ["ab", "ab"]) := rfl
example : recovered (α := List String) (.many ab) "ac"
    = .ret (.ok ["ab"]) := rfl
example : recovered (α := List String) (.sepBy ab comma) "ab,ab,ab"
    = .ret (.ok ["ab", "ab", "ab"]) := rfl
example : recovered (α := List String) (.sepBy ab comma) "ab,ab,ab,"
    = .ret (.ok ["ab", "ab", "ab", "ab"]) := rfl
example : recovered (α := List String) (.sepBy ab comma) "ab,ab,,ab"
    = .ret (.ok ["ab", "ab", "ab"]) := rfl
example : recovered (α := List String) (.sepBy ab comma) "ab,abab"
    = .ret (.ok ["ab", "ab"]) := rfl
example : recovered (α := List String) (.sepBy ab comma) "ab,a,ab"
    = .ret (.ok ["ab", "ab", "ab"]) := rfl
example : recovered (α := List String) (.sepBy ab comma) "ab,b,ab"
    = .ret (.ok ["ab", "ab", "ab"]) := rfl
example : recovered (α := String) (.alt ab a) "ab"
    = .ret (.ok "ab") := rfl
example : recovered (α := String) (.alt (.attempt ab) a) "ab"
    = .ret (.ok "ab") := rfl
example : recovered (α := String) (.alt ab a) "a"
    = .ret (.ok "ab") := rfl
example : recovered (α := String) (.alt (.attempt ab) a) "a"
    = .ret (.ok "a") := rfl
example : recovered (α := String) (.map (.seq a (.attempt b)) join) "a"
    = .ret (.ok "ab") := rfl
example : recovered (α := String) (.map (.seq a (.attempt b)) join) "b"
    = .ret (.ok "ab") := rfl
example : recovered (α := String) (.recoverWith ab "b" "'b'") "ab"
    = .ret (.ok "ab") := rfl
example : recovered (α := String) (.recoverWith ab "b" "'b'") "_ab"
    = .ret (.ok "ab") := rfl
example : recovered (α := String) (.recoverWith ab "b" "'b'") "a"
    = .ret (.ok "ab") := rfl
example : recovered (α := String) (.recoverWith ab "b" "'b'") "b"
    = .ret (.ok "ab") := rfl
example : recovered (α := String) (.recoverWith ab "b" "'b'") ""
    = .ret (.ok "b") := rfl
example : recovered (α := String) (.recoverWithFn ab (fun _ _ => .ok "b") fun _ => "'b'") "a"
    = .ret (.ok "ab") := rfl
example : recovered (α := String) (.recoverWithFn ab (fun _ _ => .ok "b") fun _ => "'b'") ""
    = .ret (.ok "b") := rfl
example : recovered (α := String) (.alt (.recoverWith ab "b" "'b'") a) ""
    = .ret (.ok "b") := rfl
example : recovered (α := String) (.alt (.recoverWithFn ab (fun _ _ => .ok "b") fun _ => "'b'") a) ""
    = .ret (.ok "b") := rfl
example : recovered (α := String) (.map (.seq (.recoverWith a "b" "'b'") (.attempt b)) join) "b"
    = .ret (.ok "bb") := rfl
example : recovered (α := String) (.alt ab cab) "ab"
    = .ret (.ok "ab") := rfl
example : recovered (α := String) (.alt ab cab) "cab"
    = .ret (.ok "cab") := rfl
example : recovered (α := String) (.alt ab cab) "b"
    = .ret (.ok "ab") := rfl
example : recovered (α := String) (.alt cab ab) "b"
    = .ret (.ok "cab") := rfl
example : recovered (α := String) (.seql (.alt ab cab) a) ""
    = .ret (.ok "ab") := rfl
example : recovered (α := String) (.seql (.alt cab ab) a) ""
    = .ret (.ok "cab") := rfl
example : recovered (α := String) (.alt abaa caba) "b"
    = .ret (.ok "abaa") := rfl
example : recovered (α := String) (.alt caba abaa) "b"
    = .ret (.ok "caba") := rfl
example : recovered (α := String) (.alt aaba caba) "b"
    = .ret (.ok "aaba") := rfl
example : recovered (α := String) (.alt caba aaba) "b"
    = .ret (.ok "caba") := rfl

end Reparsec.Tests.Recovery
