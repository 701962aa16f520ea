import Verif.Props.Stack
import Verif.Props.Samples

/-!
# C67: inputs that need more stack than there is
-/

namespace Reparsec.Samples

open Reparsec

/-- `(sym("a") >> satisfy(lambda c: c == "b")).many()` -/
def pairs : P Char Empty (fun _ => Unit) (List Char) :=
  .many (.seqr (.sym 'a' "'a'") (.satisfy fun c => .ok (c == 'b')))

/-- `"axb" * n`: `n` items with an error in each of them. -/
def broken : Nat → List Char
  | 0 => []
  | n + 1 => 'a' :: 'x' :: 'b' :: broken n

/-- `"(" * n + "x" + ")" * n` -/
def nested : Nat → List Char
  | 0 => ['x']
  | n + 1 => '(' :: nested n ++ [')']

end Reparsec.Samples

namespace Reparsec

open Samples

/-- One item of `pairs`. -/
def pairsItem : P Char Empty (fun _ => Unit) Char :=
  .seqr (.sym 'a' "'a'") (.satisfy fun c => .ok (c == 'b'))

theorem getElem?_of_drop {τ : Type} {s l : List τ} {pos : Nat} (h : s.drop pos = l) (i : Nat) :
    s[pos + i]? = l[i]? := by
  rw [← h, List.getElem?_drop]

theorem pairsItem_broken (n : Nat) {s : List Char} {pos m : Nat} (h : s.drop pos = broken (m + 1))
    (ctx : Ctx Char) (ins : Int) : ∃ ra r, ra.repairs = [r] ∧ r.pos = pos + 3 ∧
      (denote noEnv n pairsItem).fn s pos ctx ins none = .ret (.recovered ra) := by
  have h0 : s[pos]? = some 'a' := getElem?_of_drop h 0
  have h1 : s[pos + 1]? = some 'x' := getElem?_of_drop h 1
  have h2 : s[pos + 2]? = some 'b' := getElem?_of_drop h 2
  have hl : pos + 2 < s.length := (List.getElem?_eq_some_iff.1 h2).1
  have hs : s.length - (pos + 1 + 1) = (s.length - (pos + 3)) + 1 := by omega
  have e1 : testAt (fun c => Except.ok (c == 'b')) s (pos + 1) = .ok none := by
    unfold testAt; rw [h1]; rfl
  have e2 : scan (testAt (fun c => Except.ok (c == 'b')) s) (s.length - (pos + 1 + 1)) (pos + 1 + 1)
      = .ok (some (pos + 2, 'b')) := by
    rw [hs]
    simp only [scan, testAt, show pos + 1 + 1 = pos + 2 from rfl, h2]
    rfl
  have e3 : symAt 'a' s pos = some 'a' := by unfold symAt; rw [h0]; rfl
  refine ⟨⟨[?r], ?a, ?b, ?c, ?d⟩, ?r, rfl, ?pos, ?eq⟩
  case eq =>
    simp only [denote, pairsItem, P.seqr, denoteWith, seqFns, seqFn, symFns, symFn, e3,
      satisfyFns, satisfyFn, Out.bind_def, Out.bind, Out.pure_def, if_true, e1, e2, Out.ofExcept]
    rfl
  case pos => rfl

theorem pairsItem_end (n : Nat) {s : List Char} {pos : Nat} (h : s.drop pos = [])
    (ctx : Ctx Char) (ins : Int) : ∃ e, e.consumed = false ∧
      (denote noEnv n pairsItem).fn s pos ctx ins none = .ret (.error e) := by
  have h0 : s[pos]? = none := getElem?_of_drop h 0
  simp only [denote, pairsItem, P.seqr, denoteWith, seqFns, seqFn, symFns, symFn, symAt, h0,
    Out.bind_def, Out.bind]
  exact ⟨_, rfl, rfl⟩

theorem drop_succ {s : List Char} {pos n : Nat} (h : s.drop pos = broken (n + 1)) :
    s.drop (pos + 3) = broken n := by
  rw [← List.drop_drop, h]; rfl

/-- Without a limit the errors are repaired. -/
theorem manyLoop_broken (m n : Nat) {s : List Char} {pos fuel : Nat} (h : s.drop pos = broken n)
    (hf : n < fuel) (ctx : Ctx Char) (ins : Int) (c : Bool) (v : List Char) :
    ∃ r, manyLoop (denote noEnv m pairsItem).fn s ins fuel pos ctx c v = .ret r := by
  induction n generalizing pos fuel ctx c v with
  | zero =>
    obtain ⟨fuel, rfl⟩ : ∃ k, fuel = k + 1 := ⟨fuel - 1, by omega⟩
    obtain ⟨e, hc, he⟩ := pairsItem_end m h ctx ins
    simp only [manyLoop, he, Out.bind_def, Out.bind, hc]
    exact ⟨_, rfl⟩
  | succ n ih =>
    obtain ⟨fuel, rfl⟩ : ∃ k, fuel = k + 1 := ⟨fuel - 1, by omega⟩
    obtain ⟨ra, r, hra, hr, he⟩ := pairsItem_broken m h ctx ins
    obtain ⟨x, hx⟩ := ih (pos := r.pos) (fuel := fuel) (by rw [hr]; exact drop_succ h) (by omega)
      r.ctx false []
    simp only [manyLoop, he, Out.bind_def, Out.bind, continueParse, contReps, hra, hx]
    exact ⟨_, rfl⟩

/-- With a limit the stack is used up. -/
theorem manyLoop_broken_limited (m n : Nat) {s : List Char} {pos fuel e : Nat}
    (h : s.drop pos = broken n) (hf : n < fuel) (he : e ≤ n) (ctx : Ctx Char) (ins : Int) (c : Bool)
    (v : List Char) :
    Stk.manyLoop (Stk.denote noEnv m pairsItem) s ins fuel (some e) pos ctx c v
      = .raise Stk.recursionError := by
  induction n generalizing pos fuel e ctx c v with
  | zero =>
    obtain ⟨fuel, rfl⟩ : ∃ k, fuel = k + 1 := ⟨fuel - 1, by omega⟩
    obtain rfl : e = 0 := by omega
    rfl
  | succ n ih =>
    obtain ⟨fuel, rfl⟩ : ∃ k, fuel = k + 1 := ⟨fuel - 1, by omega⟩
    obtain ⟨ra, r, hra, hr, hi⟩ := pairsItem_broken m h ctx ins
    have hrel := (Stk.denote_rel (k := ⟨false, true, false, none⟩) noEnv (n := m) (n' := m)
      (.inl rfl) pairsItem (some e) none ⟨.inr ⟨rfl, .inl rfl⟩, by intro m hm; cases hm⟩).2
      s pos ctx ins none
    rw [Stk.denote_none, hi] at hrel
    have hcase : (Stk.denote noEnv m pairsItem (some e)).fn s pos ctx ins none
        = .raise Stk.recursionError ∨
        (Stk.denote noEnv m pairsItem (some e)).fn s pos ctx ins none = .ret (.recovered ra) := by
      rcases hrel with ⟨h, _⟩ | ⟨_, h⟩ | ⟨h, _⟩ | h
      · cases h
      · exact .inl h
      · cases h
      · exact .inr h
    rcases hcase with hx | hx
    · simp only [Stk.manyLoop, hx, Out.bind_def, Out.bind]
    · simp only [Stk.manyLoop, hx, Out.bind_def, Out.bind, Stk.continueParse]
      rcases e with _ | _ | _ | e
      · rfl
      · simp only [Stk.call, continueParse, hra, contReps, Out.bind_def, Out.bind]
      · simp only [Stk.call, continueParse, hra, contReps, Out.bind_def, Out.bind]
      · have := ih (pos := r.pos) (fuel := fuel) (e := e) (by rw [hr]; exact drop_succ h) (by omega)
          (by omega) r.ctx false []
        simp only [Stk.call, continueParse, hra, contReps, Out.bind_def, Out.bind, this]

/-- C67, a finding: `many` with recovery calls itself for every error. However many frames there are,
with enough errors in the input they are used up: the parse raises `RecursionError`, although the parser
has height 3, and without a limit all errors would be repaired. -/
theorem C67_errors_overflow (d : Nat) (k : Int) (gl : Loc → List Char → Nat → Loc) :
    Height pairs 3 ∧
    RaisesIn d noEnv pairs (broken d) (recovering k gl) Stk.recursionError ∧
    (∃ r, Returns noEnv pairs (broken d) (recovering k gl) r) ∧
    ∃ r, ReturnsIn 5 noEnv pairs (broken d) (plain gl) r := by
  have hh : Height pairs 3 := .many (.seqWith _ (.sym _ _) (.satisfy _))
  have hret : ∃ r, Returns noEnv pairs (broken d) (recovering k gl) r := by
    obtain ⟨r, hr⟩ := manyLoop_broken (d + 1) d (s := broken d) (pos := 0) (fuel := d + 1) rfl
      (by omega) (initCtx gl) k false []
    exact ⟨r, d + 1, hr⟩
  refine ⟨hh, ⟨d + 1, ?_⟩, hret, ?_⟩
  · rcases d with _ | _ | _ | d
    · rfl
    · rfl
    · rfl
    · exact manyLoop_broken_limited (d + 3 + 1) (d + 3) (s := broken (d + 3)) (pos := 0)
        (fuel := d + 3 + 1) (e := d) rfl (by omega) (by omega) (initCtx gl) k false []
  · cases d with
    | zero => exact ⟨_, 1, rfl⟩
    | succ d => exact ⟨_, 1, rfl⟩

/-! ### Nesting -/

theorem nested_length (n : Nat) : (nested n).length = 2 * n + 1 := by
  induction n with
  | zero => rfl
  | succ n ih => simp [nested, ih]; omega

theorem nest_fast (n : Nat) {s rest : List Char} {pos : Nat} (h : s.drop pos = nested n ++ rest)
    (ctx : Ctx Char) {fuel : Nat} (hf : n < fuel) : ∃ ex,
      (table nestEnv fuel ()).fast s pos ctx = .ret (.ok ⟨n, pos + (2 * n + 1), ctx, ex, true⟩) := by
  induction n generalizing pos rest fuel with
  | zero =>
    obtain ⟨fuel, rfl⟩ : ∃ k, fuel = k + 1 := ⟨fuel - 1, by omega⟩
    have h0 : s[pos]? = some 'x' := getElem?_of_drop h 0
    have e1 : symAt '(' s pos = none := by unfold symAt; rw [h0]; rfl
    have e2 : symAt 'x' s pos = some 'x' := by unfold symAt; rw [h0]; rfl
    refine ⟨?ex, ?eq⟩
    case eq =>
      simp only [table, nestEnv, denoteWith, P.map, P.seqr, P.seql, altFns, altFast, fmapFns, fmapFast,
        seqFns, seqFast, symFns, symFast, e1, e2, Out.bind_def, Out.bind]
      rfl
  | succ n ih =>
    obtain ⟨fuel, rfl⟩ : ∃ k, fuel = k + 1 := ⟨fuel - 1, by omega⟩
    have h0 : s[pos]? = some '(' := getElem?_of_drop h 0
    have e1 : symAt '(' s pos = some '(' := by unfold symAt; rw [h0]; rfl
    have hd : s.drop (pos + 1) = nested n ++ (')' :: rest) := by
      rw [← List.drop_drop, h]; simp [nested]
    obtain ⟨ex, hx⟩ := ih hd (fuel := fuel) (by omega)
    have h2 : s[pos + 1 + (2 * n + 1)]? = some ')' := by
      rw [getElem?_of_drop hd, List.getElem?_append_right (by rw [nested_length]), nested_length]
      simp
    have e3 : symAt ')' s (pos + 1 + (2 * n + 1)) = some ')' := by unfold symAt; rw [h2]; rfl
    refine ⟨?ex1, ?eq1⟩
    case eq1 =>
      rw [show pos + (2 * (n + 1) + 1) = pos + 1 + (2 * n + 1) + 1 by omega]
      simp only [table, nestEnv, denoteWith, P.map, P.seqr, P.seql, altFns, altFast, fmapFns, fmapFast,
        seqFns, seqFast, symFns, symFast, e1, hx, e3, Out.bind_def, Out.bind]
      rfl

theorem nest_overflow (n : Nat) {s rest : List Char} {pos : Nat} (h : s.drop pos = nested n ++ rest)
    (ctx : Ctx Char) {fuel e : Nat} (hf : n < fuel) (he : e ≤ n) :
      (Stk.table nestEnv fuel () (some e)).fast s pos ctx = .raise Stk.recursionError := by
  induction n generalizing pos rest fuel e with
  | zero =>
    obtain ⟨fuel, rfl⟩ : ∃ k, fuel = k + 1 := ⟨fuel - 1, by omega⟩
    obtain rfl : e = 0 := by omega
    rfl
  | succ n ih =>
    obtain ⟨fuel, rfl⟩ : ∃ k, fuel = k + 1 := ⟨fuel - 1, by omega⟩
    have h0 : s[pos]? = some '(' := getElem?_of_drop h 0
    have e1 : symAt '(' s pos = some '(' := by unfold symAt; rw [h0]; rfl
    have hd : s.drop (pos + 1) = nested n ++ (')' :: rest) := by
      rw [← List.drop_drop, h]; simp [nested]
    rcases e with _ | _ | _ | _ | _ | e
    · rfl
    · rfl
    · rfl
    · rfl
    · rfl
    · have hx := ih hd (fuel := fuel) (e := e) (by omega) (by omega)
      simp only [Stk.table, nestEnv, Stk.denoteWith, P.map, P.seqr, P.seql, altFns, altFast, fmapFns,
        fmapFast, Stk.seqFns, seqFast, symFns, symFast, e1, hx, Out.bind_def, Out.bind, Stk.framed,
        Stk.call]

/-- C67, recursion in the grammar takes stack as well: however many frames there are, an input that is
accepted without a limit but nests deeply enough uses them up. -/
theorem C67_nesting_overflow (d : Nat) (gl : Loc → List Char → Nat → Loc) :
    RaisesIn d nestEnv nest (nested d) (plain gl) Stk.recursionError ∧
    ∃ r, Returns nestEnv nest (nested d) (plain gl) (.ok r) ∧ r.value = d := by
  constructor
  · refine ⟨d + 1, ?_⟩
    rcases d with _ | _ | _ | d
    · rfl
    · rfl
    · rfl
    · have hx := nest_overflow (d + 3) (s := nested (d + 3)) (rest := []) (pos := 0) (by simp)
        (initCtx gl) (fuel := d + 3 + 1) (e := d) (by omega) (by omega)
      simp only [Stk.parse, Stk.call, plain, Stk.framed, Stk.denote, nest, P.seql, Stk.denoteWith,
        Stk.seqFns, seqFast, hx, Out.bind_def, Out.bind, Bool.false_eq_true, if_false]
  · obtain ⟨ex, hx⟩ := nest_fast d (s := nested d) (rest := []) (pos := 0) (by simp)
      (initCtx gl) (fuel := d + 1) (by omega)
    have hl : 0 + (2 * d + 1) = (nested d).length := by rw [nested_length]; omega
    refine ⟨⟨d, ?pos2, ?ctx2, ?ex2, ?c2⟩, ⟨d + 1, ?eq2⟩, rfl⟩
    case eq2 =>
      simp only [parse, plain, denote, nest, P.seql, denoteWith,
        seqFns, seqFast, hx, Out.bind_def, Out.bind, Bool.false_eq_true, if_false, eofFns, eofFast]
      rw [if_pos hl]
      rfl

/-! ### The hypotheses are met -/

/-- A list of items has height 7, so nine frames are enough for lists of any length. -/
example : Height list 7 :=
  Height.seqWith _ (.fmap _ (.maybe (.seqWith _ (.sym _ _)
    (.many (.seqWith _ (.sym _ _) (.sym _ _)))))) .eof

example : list.All P.fixedShape := by
  simp [list, P.sepBy, P.seql, P.seqr, P.seq, P.map, P.All, P.fixedShape]

/-- Left recursion, which hangs in the model without a limit, is reported as `RecursionError`. -/
example (d : Nat) (s : List Char) (gl : Loc → List Char → Nat → Loc) :
    RaisesIn d loopEnv (.ref ()) s (plain gl) Stk.recursionError := by
  apply C67_hangs
  intro n
  have : ∀ n ctx, (table loopEnv n ()).fast s 0 ctx = .diverge := by
    intro n
    induction n with
    | zero => intro ctx; rfl
    | succ n ih =>
      intro ctx
      simp only [table, loopEnv, denoteWith, labelFns, ih]
      rfl
  simp only [parse, denote, denoteWith, plain, this]
  rfl

/-- An actual run that overflows, one that does not, and the least number of frames for it. -/
example : (Stk.parse nestEnv 30 (some 20) nest "((x))".toList false 5 defaultGetLoc) ≠ .raise Stk.recursionError ∧
    Stk.parse nestEnv 30 (some 10) nest "((x))".toList false 5 defaultGetLoc
      = .raise Stk.recursionError := ⟨nofun, rfl⟩

end Reparsec
