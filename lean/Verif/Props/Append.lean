import Verif.Lemmas.AppendFlat
import Verif.Lemmas.AppendStatic
import Verif.Props.StackOverflow

/-!
# C83: looking at a result needs no more stack than parsing did
-/

namespace Reparsec

open App (Exp)

variable {τ ρ : Type} {Γ : ρ → Type} {α : Type} [BEq τ]
  {env : Env τ ρ Γ} {p : P τ ρ Γ α} {s : List τ} {o : Opts τ} {d : Nat}

theorem map_eq_ret {β γ : Type} {f : β → γ} {x : Out β} {c : γ} : x.map f = .ret c ↔ ∃ b, x = .ret b ∧ f b = c := by
  cases x <;> simp [Out.map]

/-- **C83**: `Append` objects stand for the lists of the model without them: a call returns a result with them if and only
if it returns, in that model, the result with the lists one gets by iterating. -/
theorem C83_same (r : Result τ α) : (∃ r', GivesIn d env p s o r' ∧ r'.flat = r) ↔ ReturnsIn d env p s o r := by
  constructor
  · rintro ⟨r', ⟨n, h⟩, rfl⟩
    exact ⟨n, by rw [← App.Stk.flat_parse, h]; rfl⟩
  · rintro ⟨n, h⟩
    rw [← App.Stk.flat_parse] at h
    obtain ⟨r', h1, h2⟩ := map_eq_ret.1 h
    exact ⟨r', ⟨n, h1⟩, h2⟩

/-- C83: the same without a limit. -/
theorem C83_same_unlimited (r : Result τ α) : (∃ r', Gives env p s o r' ∧ r'.flat = r) ↔ Returns env p s o r := by
  have h0 : ∀ n, Stk.parse env n none p s o.recover o.maxInsertions o.getLoc =
      parse env n p s o.recover o.maxInsertions o.getLoc := fun n => Stk.parse_none env n p s _ _ _
  constructor
  · rintro ⟨r', ⟨n, h⟩, rfl⟩
    exact ⟨n, by rw [← h0, ← App.Stk.flat_parse, h]; rfl⟩
  · rintro ⟨n, h⟩
    rw [← h0, ← App.Stk.flat_parse] at h
    obtain ⟨r', h1, h2⟩ := map_eq_ret.1 h
    exact ⟨r', ⟨n, h1⟩, h2⟩

/-! ### Iterating -/

/-- C83: iterating over an object gives its strings if there are as many frames as objects are nested in it, and raises
`RecursionError` otherwise. -/
theorem C83_iterate (x : Exp) (d : Nat) :
    App.Stk.iterate x (some d) = if x.depth ≤ d then .ret x.toList else .raise Stk.recursionError := by
  induction x generalizing d with
  | leaf l => simp [App.Stk.iterate, Exp.depth, Exp.toList]
  | app a b iha ihb =>
    cases d with
    | zero => simp [App.Stk.iterate, Stk.call, Exp.depth]
    | succ d =>
      have e : (Exp.app a b).depth = max a.depth b.depth + 1 := rfl
      have e2 : (Exp.app a b).toList = a.toList ++ b.toList := rfl
      simp only [App.Stk.iterate, Stk.call, iha, ihb]
      by_cases ha : a.depth ≤ d
      · by_cases hb : b.depth ≤ d
        · rw [if_pos ha, if_pos hb, if_pos (by rw [e]; omega), e2]; rfl
        · rw [if_pos ha, if_neg hb, if_neg (by rw [e]; omega)]; rfl
      · rw [if_neg ha, if_neg (c := (Exp.app a b).depth ≤ d + 1) (by rw [e]; omega)]; rfl

theorem iterate_ret {x : Exp} {d : Nat} (h : x.depth ≤ d) : App.Stk.iterate x (some d) = .ret x.toList := by
  rw [C83_iterate, if_pos h]

omit [BEq τ] in
theorem flat_keyLt (a b : App.Repair τ α) : keyLt a.flat b.flat = App.keyLt a b := rfl

omit [BEq τ] in
theorem flat_minRepair (a : App.Repair τ α) (l : List (App.Repair τ α)) :
    (App.minRepair a l).flat = minRepair a.flat (l.map App.Repair.flat) := by
  induction l generalizing a with
  | nil => rfl
  | cons b l ih =>
    simp only [App.minRepair, List.map_cons, minRepair, ih, flat_keyLt]
    by_cases h : App.keyLt b a = true <;> simp [h]

omit [BEq τ] in
theorem minRepair_within {n : Nat} {a : App.Repair τ α} {l : List (App.Repair τ α)} (ha : a.Within n)
    (hl : ∀ x ∈ l, x.Within n) : (App.minRepair a l).Within n := by
  induction l generalizing a with
  | nil => exact ha
  | cons b l ih =>
    refine ih ?_ fun x hx => hl x (List.mem_cons_of_mem _ hx)
    split
    · exact hl b List.mem_cons_self
    · exact ha

theorem errorItems_ret {fmt : Loc → String} {d : Nat} {l : List App.OpItem} (h : ∀ i ∈ l, i.expected.depth ≤ d) :
    App.Stk.errorItems fmt (some d) l =
      .ret (l.map fun i => { loc := i.loc, locStr := fmt i.loc, expected := i.expected.toList, op := some i.op }) := by
  induction l with
  | nil => rfl
  | cons i l ih =>
    simp only [App.Stk.errorItems, iterate_ret (h i List.mem_cons_self), ih fun i hi => h i (List.mem_cons_of_mem _ hi)]
    rfl

omit [BEq τ] in
theorem unwrap_ret {r : App.Result τ α} (h : r.Within d) (fmt : Loc → String) (b : Bool) :
    App.Stk.unwrap fmt b (some (d + 2)) r = .ret (r.flat.unwrap fmt b) := by
  have hm : ∀ {x : Exp}, x.depth ≤ d → x.depth ≤ d + 1 := fun h => Nat.le_succ_of_le h
  cases r with
  | ok r => rfl
  | error e =>
    simp only [App.Stk.unwrap, Stk.call, iterate_ret (hm h)]
    rfl
  | recovered r =>
    obtain ⟨reps, mp, loc, ex, c⟩ := r
    cases reps with
    | nil =>
      simp only [App.Stk.unwrap, Stk.call, iterate_ret (hm h.1)]
      rfl
    | cons x xs =>
      have hw : (App.minRepair x xs).Within d :=
        minRepair_within (h.2 x List.mem_cons_self) fun y hy => h.2 y (List.mem_cons_of_mem _ hy)
      simp only [App.Stk.unwrap, Stk.call, App.Result.flat, App.Recovered.flat, List.map_cons, Result.unwrap]
      cases b with
      | true =>
        rw [← flat_minRepair]
        rfl
      | false =>
        rw [← flat_minRepair, errorItems_ret hw.2]
        simp only [Bool.false_eq_true, if_false, Out.bind_def, Out.bind_ret, Out.pure_def, errorItems, App.Repair.flat,
          List.map_map]
        rfl

/-! ### The stack that looking at a result needs -/

/-- C83: in what `parse` returns within `d` frames fewer than `d` objects are nested in each other, by two. -/
theorem C83_shallow {r : App.Result τ α} (h : GivesIn d env p s o r) : 2 ≤ d ∧ r.Within (d - 2) := by
  obtain ⟨n, h⟩ := h
  exact App.Stk.parse_bounded env n d p s _ _ _ r h

/-- **C83**: if `parse` returned within `d` frames, then `unwrap`, called from the same place, needs no more: it returns
the value, or raises the `ParseError`, with the strings that stand for the objects, and never `RecursionError`. -/
theorem C83_unwrap {r : App.Result τ α} (h : GivesIn d env p s o r) (fmt : Loc → String) (b : Bool) :
    App.Stk.unwrap fmt b (some d) r = .ret (r.flat.unwrap fmt b) := by
  obtain ⟨h2, hw⟩ := C83_shallow h
  obtain ⟨d, rfl⟩ : ∃ e, d = e + 2 := ⟨d - 2, by omega⟩
  exact unwrap_ret hw fmt b

/-- **C83**: without `Delay` objects the objects are nested no deeper than the parser expression is high, in both modes,
however long the input is and however many errors are in it. -/
theorem C83_height {h : Nat} (hp : Height p h) {r : App.Result τ α} (hr : Gives env p s o r) : r.Within h := by
  obtain ⟨n, hr⟩ := hr
  exact App.Stk.parse_static env n none hp s _ _ _ r hr

/-- C83: so `unwrap` needs only two frames more than that. -/
theorem C83_height_unwrap {h : Nat} (hp : Height p h) {r : App.Result τ α} (hr : Gives env p s o r) (fmt : Loc → String)
    (b : Bool) : App.Stk.unwrap fmt b (some (h + 2)) r = .ret (r.flat.unwrap fmt b) :=
  unwrap_ret (C83_height hp hr) fmt b

/-! ### Recursive grammars -/

namespace Samples

/-- `chain.define(sym("a") >> chain << sym("b").maybe() | Pure(None))` -/
def chainEnv : Env Char Unit (fun _ => Unit) := fun _ =>
  some (.alt (.seql (.seqr (.sym 'a' "'a'") (.ref ())) (.maybe (.sym 'b' "'b'"))) (.pure ()))

/-- `chain << eof()` -/
def chain : P Char Unit (fun _ => Unit) Unit := .seql (.ref ()) .eof

/-- `"a" * n + "c"` -/
def chainInput (n : Nat) : List Char := List.replicate n 'a' ++ ['c']

theorem chain_fast (n : Nat) {s : List Char} {pos : Nat} (h : s.drop pos = chainInput n) (ctx : Ctx Char) {fuel : Nat}
    (hf : n < fuel) : ∃ ex, (App.Stk.table chainEnv fuel () none).fast s pos ctx =
      .ret (.ok ⟨(), pos + n, ctx, ex, decide (n ≠ 0)⟩) ∧ n < ex.depth := by
  induction n generalizing pos fuel with
  | zero =>
    obtain ⟨fuel, rfl⟩ : ∃ k, fuel = k + 1 := ⟨fuel - 1, by omega⟩
    have h0 : s[pos]? = some 'c' := getElem?_of_drop h 0
    have e1 : symAt 'a' s pos = none := by unfold symAt; rw [h0]; rfl
    refine ⟨.app (.leaf ["'a'"]) (.leaf []), ?_, by decide⟩
    simp only [App.Stk.table, chainEnv, App.Stk.denoteWith, P.seqr, P.seql, App.altFns, App.altFast, App.Stk.seqFns,
      App.seqFast, App.symFns, App.symFast, e1, Out.bind_def, Out.bind, App.Stk.framed, Stk.call]
    rfl
  | succ n ih =>
    obtain ⟨fuel, rfl⟩ : ∃ k, fuel = k + 1 := ⟨fuel - 1, by omega⟩
    have h0 : s[pos]? = some 'a' := getElem?_of_drop h 0
    have e1 : symAt 'a' s pos = some 'a' := by unfold symAt; rw [h0]; rfl
    have hd : s.drop (pos + 1) = chainInput n := by
      rw [← List.drop_drop, h]; simp [chainInput, List.replicate_succ]
    obtain ⟨ex, hx, hdep⟩ := ih hd (fuel := fuel) (by omega)
    have h2 : s[pos + 1 + n]? = some 'c' := by
      rw [getElem?_of_drop hd, chainInput, List.getElem?_append_right (by simp)]
      simp
    have e3 : symAt 'b' s (pos + 1 + n) = none := by unfold symAt; rw [h2]; rfl
    have e4 : pos + (n + 1) = pos + 1 + n := by omega
    rw [e4]
    by_cases hn : n = 0
    · subst hn
      refine ⟨.app (.app (.leaf []) ex) (.leaf ["'b'"]), ?_, ?_⟩
      · have hc : decide (0 ≠ 0) = false := rfl
        rw [hc] at hx
        simp only [App.Stk.table, chainEnv, App.Stk.denoteWith, P.seqr, P.seql, App.altFns, App.altFast, App.Stk.seqFns,
          App.seqFast, App.symFns, App.symFast, App.maybeFns, App.maybeFast, e1, hx, e3, Out.bind_def, Out.bind,
          App.Stk.framed, Stk.call, Out.pure_def, App.Simple.prependExpected, App.Simple.fmap, App.Ok.prependExpected,
          App.Ok.fmap, Bool.false_eq_true, if_false]
        rfl
      · simp only [Exp.depth]; omega
    · refine ⟨.app ex (.leaf ["'b'"]), ?_, ?_⟩
      · have hc : decide (n ≠ 0) = true := by simpa using hn
        rw [hc] at hx
        simp only [App.Stk.table, chainEnv, App.Stk.denoteWith, P.seqr, P.seql, App.altFns, App.altFast, App.Stk.seqFns,
          App.seqFast, App.symFns, App.symFast, App.maybeFns, App.maybeFast, e1, hx, e3, Out.bind_def, Out.bind,
          App.Stk.framed, Stk.call, Out.pure_def, App.Simple.prependExpected, App.Simple.fmap, App.Ok.prependExpected,
          App.Ok.fmap, Bool.false_eq_true, if_false, if_true]
        rfl
      · simp only [Exp.depth]; omega

/-- C83: for recursive grammars there is no such bound: for every number of frames there is an input for which `parse`
(called with enough stack) returns an error that `unwrap` cannot report within that number of frames, so it has to be
called with as much stack as `parse`. -/
theorem C83_deep (d : Nat) (gl : Loc → List Char → Nat → Loc) (fmt : Loc → String) (b : Bool) :
    ∃ r, Gives chainEnv chain (chainInput d) (plain gl) r ∧
      App.Stk.unwrap fmt b (some d) r = .raise Stk.recursionError := by
  obtain ⟨ex, hx, hdep⟩ := chain_fast d (s := chainInput d) (pos := 0) rfl (initCtx gl) (fuel := d + 1) (by omega)
  have hl : ¬ 0 + d = (chainInput d).length := by simp [chainInput]
  refine ⟨.error ⟨(initCtx gl).getLoc (chainInput d) (0 + d), .app ex (.leaf ["end of file"]), decide (d ≠ 0)⟩, ⟨d + 1, ?_⟩, ?_⟩
  · simp only [App.Stk.parse, plain, App.Stk.denote, chain, P.seql, App.Stk.denoteWith, App.Stk.seqFns, App.seqFast, hx,
      Out.bind_def, Out.bind, Bool.false_eq_true, if_false, App.eofFns, App.eofFast, App.Stk.framed, Stk.call]
    rw [if_neg hl]
    rfl
  · cases d with
    | zero => rfl
    | succ d =>
      have e : (Exp.app ex (.leaf ["end of file"])).depth = max ex.depth 0 + 1 := rfl
      simp only [App.Stk.unwrap, Stk.call, C83_iterate]
      rw [if_neg (by rw [e]; omega)]
      rfl

/-- The hypotheses of `C83_height` are met with errors in the input, and with recovery: eight levels are enough for
lists of any length (`C67` has the height); the objects are there. -/
example : ∃ r, Gives noEnv list "a,a".toList (recovering 5 defaultGetLoc) r ∧ r.Within 7 := by
  have h : ∃ r, Gives noEnv list "a,a".toList (recovering 5 defaultGetLoc) r := ⟨_, 9, rfl⟩
  obtain ⟨r, hr⟩ := h
  exact ⟨r, hr, C83_height (Height.seqWith _ (.fmap _ (.maybe (.seqWith _ (.sym _ _)
    (.many (.seqWith _ (.sym _ _) (.sym _ _)))))) .eof) hr⟩

/-- A result: `sym("a") | sym("b") | sym("c")` on `x`. -/
example : Gives noEnv (.alt (.alt (.sym 'a' "a") (.sym 'b' "b")) (.sym 'c' "c")) ['x'] (plain defaultGetLoc)
    (.error ⟨⟨0, 0, 0⟩, .app (.app (.leaf ["a"]) (.leaf ["b"])) (.leaf ["c"]), false⟩) := ⟨1, rfl⟩

/-- Five frames are enough to parse this; two are not enough to report it. -/
example : GivesIn 5 noEnv (.alt (.alt (.sym 'a' "a") (.sym 'b' "b")) (.sym 'c' "c")) ['x'] (plain defaultGetLoc)
      (.error ⟨⟨0, 0, 0⟩, .app (.app (.leaf ["a"]) (.leaf ["b"])) (.leaf ["c"]), false⟩) ∧
    App.Stk.unwrap (τ := Char) (α := Char) defaultFmtLoc false (some 2)
      (.error ⟨⟨0, 0, 0⟩, .app (.app (.leaf ["a"]) (.leaf ["b"])) (.leaf ["c"]), false⟩) = .raise Stk.recursionError :=
  ⟨⟨1, rfl⟩, rfl⟩

end Samples

end Reparsec
