import Verif.Spec.Arith
import Verif.Props.Calculator

/-!
# C70: expressions that are written out are read back
-/

namespace Reparsec

open Calculator

namespace Calculator

variable {C : Chars} {int : List Char → Int}

theorem Value.ofFactor {w : List Char} {v : Int} (h : Value C .factor w v) : ∀ l, Value C l w v
  | .factor => h
  | .term => .term h
  | .expr => .expr (.term h)

theorem Written.hasValue {l : Level} {t : Tree} {w : List Char} (h : Written C l t w) (ht : t.OK C int) :
    Value C l w (t.value int) := by
  induction h with
  | num hs => exact Value.ofFactor (.number ht.1 ht.2.1 hs ht.2.2) _
  | add _ hs _ ih1 ih2 => exact .add (ih1 ht.1) hs (ih2 ht.2)
  | sub _ hs _ ih1 ih2 => exact .sub (ih1 ht.1) hs (ih2 ht.2)
  | @mul l _ _ _ _ _ hl _ hs _ ih1 ih2 =>
    have h := Value.times (ih1 ht.1) hs (ih2 ht.2)
    cases l with
    | factor => exact absurd rfl hl
    | term => exact h
    | expr => exact .expr h
  | parens hs _ hs' ih => exact Value.ofFactor (.parens hs (ih ht) hs') _

theorem parens_written {l : Level} {t : Tree} {w sp : List Char} (hs : Blank C sp) (h : Written C .expr t w) :
    Written C l t (parenIf sp true w) := .parens hs h hs

theorem text_written {sp : List Char} (hs : Blank C sp) (t : Tree) : ∀ l, Written C l t (t.text sp l) := by
  induction t with
  | num ds => exact fun l => .num hs
  | add a b iha ihb =>
    have h := Written.add (iha .expr) hs (ihb .term)
    rintro (_ | _ | _)
    · exact parens_written hs h
    · exact parens_written hs h
    · exact h
  | sub a b iha ihb =>
    have h := Written.sub (iha .expr) hs (ihb .term)
    rintro (_ | _ | _)
    · exact parens_written hs h
    · exact parens_written hs h
    · exact h
  | mul a b iha ihb =>
    have h : ∀ l, l ≠ .factor → Written C l (.mul a b) _ := fun l hl => .mul hl (iha .term) hs (ihb .factor)
    rintro (_ | _ | _)
    · exact parens_written hs (h .expr (by intro h; cases h))
    · exact h .term (by intro h; cases h)
    · exact h .expr (by intro h; cases h)

/-- Every expression of the language is a tree written in some way. -/
theorem Value.written {l : Level} {w : List Char} {v : Int} (h : Value C l w v)
    (hi : ∀ ds, ∀ v, C.int ds = .ok v → int ds = v) : ∃ t, Written C l t w ∧ t.OK C int ∧ t.value int = v := by
  induction h with
  | @number ds sp v h1 h2 hs h3 =>
    have := hi _ _ h3
    subst this
    exact ⟨.num ds, .num hs, ⟨h1, h2, h3⟩, rfl⟩
  | parens hs _ hs' ih =>
    obtain ⟨t, h1, h2, h3⟩ := ih
    exact ⟨t, .parens hs h1 hs', h2, h3⟩
  | term _ ih =>
    obtain ⟨t, h1, h2, h3⟩ := ih
    refine ⟨t, ?_, h2, h3⟩
    generalize hl : Level.factor = l at h1
    cases h1 with
    | num hs => exact .num hs
    | add => cases hl
    | sub => cases hl
    | mul h => exact absurd hl.symm h
    | parens hs h hs' => exact .parens hs h hs'
  | expr _ ih =>
    obtain ⟨t, h1, h2, h3⟩ := ih
    refine ⟨t, ?_, h2, h3⟩
    generalize hl : Level.term = l at h1
    cases h1 with
    | num hs => exact .num hs
    | add => cases hl
    | sub => cases hl
    | mul _ g1 g2 g3 => exact .mul (by intro h; cases h) g1 g2 g3
    | parens hs h hs' => exact .parens hs h hs'
  | times _ hs _ ih1 ih2 =>
    obtain ⟨a, h1, h2, h3⟩ := ih1
    obtain ⟨b, g1, g2, g3⟩ := ih2
    exact ⟨.mul a b, .mul (by intro h; cases h) h1 hs g1, ⟨h2, g2⟩, by rw [Tree.value, h3, g3]⟩
  | add _ hs _ ih1 ih2 =>
    obtain ⟨a, h1, h2, h3⟩ := ih1
    obtain ⟨b, g1, g2, g3⟩ := ih2
    exact ⟨.add a b, .add h1 hs g1, ⟨h2, g2⟩, by rw [Tree.value, h3, g3]⟩
  | sub _ hs _ ih1 ih2 =>
    obtain ⟨a, h1, h2, h3⟩ := ih1
    obtain ⟨b, g1, g2, g3⟩ := ih2
    exact ⟨.sub a b, .sub h1 hs g1, ⟨h2, g2⟩, by rw [Tree.value, h3, g3]⟩

end Calculator

variable {C : Chars} {int : List Char → Int}

/-- **C70**, expressions as trees: however an expression is written, the calculator returns its value. -/
theorem C70_written (hC : C.OK) {t : Tree} {w : List Char} (ht : t.OK C int) (h : Written C .expr t w)
    (gl : Loc → List Char → Nat → Loc) (fmt : Loc → String) (b : Bool) :
    ∃ r, Returns (env C) parser w (plain gl) r ∧ r.unwrap fmt b = .ok (t.value int) :=
  (C70_exact hC gl fmt b _).2 (h.hasValue ht)

/-- C70: in particular if it is written with only the necessary parentheses, and the same spaces everywhere. -/
theorem C70_text (hC : C.OK) {t : Tree} (ht : t.OK C int) {sp : List Char} (hs : Blank C sp)
    (gl : Loc → List Char → Nat → Loc) (fmt : Loc → String) (b : Bool) :
    ∃ r, Returns (env C) parser (t.text sp .expr) (plain gl) r ∧ r.unwrap fmt b = .ok (t.value int) :=
  C70_written hC ht (text_written hs t .expr) gl fmt b

/-- C70: and what the calculator accepts is an expression written in some way, of which it returns the value. -/
theorem C70_trees (hC : C.OK) (hi : ∀ ds v, C.int ds = .ok v → int ds = v)
    (gl : Loc → List Char → Nat → Loc) (fmt : Loc → String) (b : Bool) (w : List Char) (v : Int) :
    (∃ r, Returns (env C) parser w (plain gl) r ∧ r.unwrap fmt b = .ok v) ↔
      ∃ t, Written C .expr t w ∧ t.OK C int ∧ t.value int = v := by
  constructor
  · intro h
    exact ((C70_exact hC gl fmt b v).1 h).written hi
  · rintro ⟨t, h1, h2, rfl⟩
    exact C70_written hC h2 h1 gl fmt b

/-- C70: expressions of different values are never written in the same way. -/
theorem C70_texts_differ (hC : C.OK) {t t' : Tree} {w : List Char} (ht : t.OK C int) (ht' : t'.OK C int)
    (h : Written C .expr t w) (h' : Written C .expr t' w) : t.value int = t'.value int :=
  C70_unambiguous hC (h.hasValue ht) (h'.hasValue ht')

/-- C70: extra parentheses and spaces do not matter. -/
theorem C70_same (hC : C.OK) {t : Tree} {w w' : List Char} (ht : t.OK C int)
    (h : Written C .expr t w) (h' : Written C .expr t w') (gl : Loc → List Char → Nat → Loc) (fmt : Loc → String)
    (b : Bool) : ∃ r r' v, Returns (env C) parser w (plain gl) r ∧ Returns (env C) parser w' (plain gl) r' ∧
      r.unwrap fmt b = .ok v ∧ r'.unwrap fmt b = .ok v := by
  obtain ⟨r, h1, h2⟩ := C70_written hC ht h gl fmt b
  obtain ⟨r', h3, h4⟩ := C70_written hC ht h' gl fmt b
  exact ⟨r, r', _, h1, h3, h2, h4⟩

namespace Samples

/-- `int` on ASCII digits. -/
def asciiInt (ds : List Char) : Int := ds.foldl (fun n c => n * 10 + ((c.toNat : Int) - 48)) 0

/-- `1 - (2 - 3) * 4` -/
def tree : Tree := .sub (.num ['1']) (.mul (.sub (.num ['2']) (.num ['3'])) (.num ['4']))

theorem tree_ok : tree.OK ascii asciiInt :=
  ⟨⟨by simp, by decide, rfl⟩, ⟨⟨by simp, by decide, rfl⟩, by simp, by decide, rfl⟩, by simp, by decide, rfl⟩

example : tree.value asciiInt = 5 := rfl
example : tree.text [] .expr = "1-(2-3)*4".toList := rfl
example : (Tree.sub (.sub (.num ['1']) (.num ['2'])) (.num ['3'])).text [] .expr = "1-2-3".toList := rfl
example : (Tree.sub (.num ['1']) (.sub (.num ['2']) (.num ['3']))).text [' '] .expr = "1 - ( 2 - 3 ) ".toList := rfl

example : ∃ r, Returns (env ascii) parser "1-(2-3)*4".toList (plain defaultGetLoc) r ∧
    r.unwrap defaultFmtLoc true = .ok 5 :=
  C70_text ascii_ok tree_ok (sp := []) (by simp [Blank]) defaultGetLoc defaultFmtLoc true

end Samples

end Reparsec
