import Verif.Props.Choice

/-!
# C30, C31, C32, C47: `recover_with`, terminals, `eof`, `literal`
-/

namespace Reparsec

variable {τ ρ : Type} {Γ : ρ → Type} {α β : Type} [BEq τ]
  {env : Env τ ρ Γ} {p : P τ ρ Γ α} {s : List τ} {pos : Nat} {ctx : Ctx τ} {ins k : Int}

/-! ### `recover_with` -/

/-- The user's repair: insert the value `x`, labelled `l`, at the current position; cost 1, one
insertion less, nothing consumed, what was expected is reported. -/
def userInsert (x : α) (l : String) (s : List τ) (pos : Nat) (ctx : Ctx τ) (k : Int)
    (expected : List String) : Repair τ α :=
  { cost := 1, prio := some 0, ins := k - 1,
    ops := [{ op := .insert l, loc := ctx.getLoc s pos, expected := expected }],
    value := x, pos := pos, ctx := ctx, expected := [], consumed := true }

/-- C30. `p` fails without consuming input, with insertions left: `p.recover_with_fn(f)` calls `f` with
the input and the position, and offers to insert what it returns, before `p`'s own repairs. -/
theorem C30_recover_with_fn {y : Result τ α} {x : α} (f : List τ → Nat → Except Exn α)
    (l : α → String) (h : RunRec env p s pos ctx ins (some k) (.ret y)) (hy : ∀ r, y ≠ .ok r)
    (hc : y.consumed = false) (hk : k ≠ 0) (hx : f s pos = .ok x) :
    ∃ r, RunRec env (.recoverWithFn p f l) s pos ctx ins (some k) (.ret (.recovered r)) ∧
      r.repairs = userInsert x (l x) s pos ctx k y.expected :: y.offers.getD [] ∧
      r.loc = ctx.getLoc s pos ∧ r.consumed = false := by
  obtain ⟨n, h⟩ := h
  simp only [denote] at h
  cases y with
  | ok r => exact absurd rfl (hy r)
  | error e =>
    have hc : e.consumed = false := hc
    refine ⟨{ repairs := userInsert x (l x) s pos ctx k e.expected :: [], minPrio := none,
              loc := ctx.getLoc s pos, expected := [] }, ⟨n, ?_⟩, rfl, rfl, rfl⟩
    simp only [denote, denoteWith, recoverWithFnFns, recoverWithFnFn, h, hc, Bool.false_eq_true,
      if_false, Out.bind_def, Out.bind_ret, ne_eq, hk, not_false_eq_true, if_true, hx,
      Out.ofExcept_ok]
    rfl
  | recovered e =>
    have hc : e.consumed = false := hc
    refine ⟨{ repairs := userInsert x (l x) s pos ctx k e.expected :: e.repairs, minPrio := e.minPrio,
              loc := ctx.getLoc s pos, expected := e.expected }, ⟨n, ?_⟩, rfl, rfl, rfl⟩
    simp only [denote, denoteWith, recoverWithFnFns, recoverWithFnFn, h, hc, Bool.false_eq_true,
      if_false, Out.bind_def, Out.bind_ret, ne_eq, hk, not_false_eq_true, if_true, hx,
      Out.ofExcept_ok]
    rfl

/-- C30. The same for `p.recover_with(x, l)`. -/
theorem C30_recover_with {y : Result τ α} (x : α) (l : String)
    (h : RunRec env p s pos ctx ins (some k) (.ret y)) (hy : ∀ r, y ≠ .ok r)
    (hc : y.consumed = false) (hk : k ≠ 0) :
    ∃ r, RunRec env (.recoverWith p x l) s pos ctx ins (some k) (.ret (.recovered r)) ∧
      r.repairs = userInsert x l s pos ctx k y.expected :: y.offers.getD [] ∧
      r.loc = ctx.getLoc s pos ∧ r.consumed = false := by
  have := C30_recover_with_fn (x := x) (fun _ _ => .ok x) (fun _ => l) h hy hc hk rfl
  obtain ⟨r, ⟨n, h1⟩, h2⟩ := this
  refine ⟨r, ⟨n, ?_⟩, h2⟩
  simp only [denote, denoteWith] at h1 ⊢
  rw [recoverWithFns_eq]; exact h1

/-- C30. If the callback raises, so does the parser. -/
theorem C30_callback_raises {y : Result τ α} {e : Exn} (f : List τ → Nat → Except Exn α)
    (l : α → String) (h : RunRec env p s pos ctx ins (some k) (.ret y)) (hy : ∀ r, y ≠ .ok r)
    (hc : y.consumed = false) (hk : k ≠ 0) (hx : f s pos = .error e) :
    RunRec env (.recoverWithFn p f l) s pos ctx ins (some k) (.raise e) := by
  obtain ⟨n, h⟩ := h
  simp only [denote] at h
  refine ⟨n, ?_⟩
  cases y with
  | ok r => exact absurd rfl (hy r)
  | error e =>
    have hc : e.consumed = false := hc
    simp [denote, denoteWith, recoverWithFnFns, recoverWithFnFn, h, hc, hk, hx]
  | recovered e =>
    have hc : e.consumed = false := hc
    simp [denote, denoteWith, recoverWithFnFns, recoverWithFnFn, h, hc, hk, hx]

/-- C30. In every other case it is `p`: while alternatives are tried. -/
theorem C30_trying (f : List τ → Nat → Except Exn α) (l : α → String) (o : Out (Result τ α)) :
    RunRec env (.recoverWithFn p f l) s pos ctx ins none o ↔ RunRec env p s pos ctx ins none o :=
  Iff.rfl

/-- C30. In every other case it is `p`: `p` succeeds, or consumed input, or no insertion is left. -/
theorem C30_otherwise_fn {y : Result τ α} (f : List τ → Nat → Except Exn α)
    (l : α → String) (h : RunRec env p s pos ctx ins (some k) (.ret y))
    (hc : (∃ r, y = .ok r) ∨ y.consumed = true ∨ k = 0) :
    RunRec env (.recoverWithFn p f l) s pos ctx ins (some k) (.ret y) := by
  obtain ⟨n, h⟩ := h
  simp only [denote] at h
  refine ⟨n, ?_⟩
  rcases hc with ⟨r, rfl⟩ | hc | rfl
  · simp [denote, denoteWith, recoverWithFnFns, recoverWithFnFn, h]
  · cases y with
    | ok r => simp [denote, denoteWith, recoverWithFnFns, recoverWithFnFn, h]
    | error e =>
      have hc : e.consumed = true := hc
      simp [denote, denoteWith, recoverWithFnFns, recoverWithFnFn, h, hc]
    | recovered e =>
      have hc : e.consumed = true := hc
      simp [denote, denoteWith, recoverWithFnFns, recoverWithFnFn, h, hc]
  · cases y <;> simp [denote, denoteWith, recoverWithFnFns, recoverWithFnFn, h]

/-- C30. The same for `recover_with`. -/
theorem C30_otherwise {y : Result τ α} (x : α) (l : String)
    (h : RunRec env p s pos ctx ins (some k) (.ret y))
    (hc : (∃ r, y = .ok r) ∨ y.consumed = true ∨ k = 0) :
    RunRec env (.recoverWith p x l) s pos ctx ins (some k) (.ret y) := by
  obtain ⟨n, h1⟩ := C30_otherwise_fn (fun _ _ => .ok x) (fun _ => l) h hc
  refine ⟨n, ?_⟩
  simp only [denote, denoteWith] at h1 ⊢
  rw [recoverWithFns_eq]; exact h1

/-- C30. If `p` raises or hangs, so does it. -/
theorem C30_raises {e : Exn} (f : List τ → Nat → Except Exn α) (l : α → String)
    (h : RunRec env p s pos ctx ins (some k) (.raise e)) :
    RunRec env (.recoverWithFn p f l) s pos ctx ins (some k) (.raise e) := by
  obtain ⟨n, h⟩ := h
  simp only [denote] at h
  exact ⟨n, by simp [denote, denoteWith, recoverWithFnFns, recoverWithFnFn, h]⟩

/-- `(a + b).recover_with(("?", "?"), "pair")` on `"c"`. -/
example : ∃ r, RunRec Samples.noEnv (.recoverWith Samples.ab ('?', '?') "pair") "c".toList 0
      (initCtx defaultGetLoc) 5 (some 5) (.ret (.recovered r)) ∧
    r.repairs.map (fun x => (x.value, x.pos, x.ops.map OpItem.op)) =
      [(('?', '?'), 0, [.insert "pair"]), (('a', 'b'), 0, [.insert "'a'", .insert "'b'"])] :=
  ⟨_, ⟨0, rfl⟩, rfl⟩

/-! ### Terminals -/

omit [BEq τ] in
theorem scan_eq_some {hit : Nat → Except Exn (Option β)} {n cur c : Nat} {b : β} (h1 : cur ≤ c)
    (h2 : c < cur + n) (h3 : hit c = .ok (some b))
    (h4 : ∀ c', cur ≤ c' → c' < c → hit c' = .ok none) : scan hit n cur = .ok (some (c, b)) := by
  induction n generalizing cur with
  | zero => omega
  | succ n ih =>
    simp only [scan]
    by_cases hc : cur = c
    · subst hc; simp [h3]
    · rw [h4 cur (Nat.le_refl _) (by omega)]
      exact ih (by omega) (by omega) fun c' h5 h6 => h4 c' (by omega) h6

omit [BEq τ] in
theorem scan_eq_none {hit : Nat → Except Exn (Option β)} {n cur : Nat}
    (h : ∀ c, cur ≤ c → c < cur + n → hit c = .ok none) : scan hit n cur = .ok none := by
  induction n generalizing cur with
  | zero => rfl
  | succ n ih =>
    simp only [scan]
    rw [h cur (Nat.le_refl _) (by omega)]
    exact ih fun c h5 h6 => h c (by omega) (by omega)

omit [BEq τ] in
theorem scan_eq_error {hit : Nat → Except Exn (Option β)} {n cur c : Nat} {e : Exn} (h1 : cur ≤ c)
    (h2 : c < cur + n) (h3 : hit c = .error e)
    (h4 : ∀ c', cur ≤ c' → c' < c → hit c' = .ok none) : scan hit n cur = .error e := by
  induction n generalizing cur with
  | zero => omega
  | succ n ih =>
    simp only [scan]
    by_cases hc : cur = c
    · subst hc; simp [h3]
    · rw [h4 cur (Nat.le_refl _) (by omega)]
      exact ih (by omega) (by omega) fun c' h5 h6 => h4 c' (by omega) h6

omit [BEq τ] in
theorem scan_map {γ : Type} {hit : Nat → Except Exn (Option β)} {hit' : Nat → Except Exn (Option γ)}
    {f : β → γ} (h : ∀ c, hit' c = (hit c).map (Option.map f)) (n cur : Nat) :
    scan hit' n cur = (scan hit n cur).map (Option.map fun x => (x.1, f x.2)) := by
  induction n generalizing cur with
  | zero => rfl
  | succ n ih =>
    simp only [scan, h]
    cases hit cur with
    | error e => rfl
    | ok o =>
      cases o with
      | none => exact ih (cur + 1)
      | some b => rfl

/-- What a terminal asks for at a position of the input: `hit` gives the value and the end of the
match, `none` if it does not match there; it may raise. -/
structure Terminal (τ α : Type) where
  hit : List τ → Nat → Except Exn (Option (α × Nat))
  /-- what is expected -/
  expected : List String
  /-- what can be inserted, and its label -/
  insertion : Option (α × String)
  /-- whether it updates the location after a match found directly -/
  moves : Bool

/-- `satisfy(test)`: one element that passes the test. -/
def Terminal.satisfy (test : τ → Except Exn Bool) : Terminal τ τ where
  hit s i :=
    match s[i]? with
    | none => .ok none
    | some t => (test t).bind fun b => .ok (if b then some (t, i + 1) else none)
  expected := []
  insertion := none
  moves := false

/-- `sym(x, l)`: one element equal to `x`. -/
def Terminal.sym (x : τ) (l : String) : Terminal τ τ where
  hit s i :=
    match s[i]? with
    | none => .ok none
    | some t => .ok (if t == x then some (t, i + 1) else none)
  expected := [l]
  insertion := some (x, l)
  moves := false

/-- `literal(x)`: the elements from here on begin with `x`. -/
def Terminal.literal (x : List τ) (l : String) : Terminal τ (List τ) where
  hit s i := .ok (if x.isPrefixOf (s.drop i) then some (x, i + x.length) else none)
  expected := [l]
  insertion := some (x, l)
  moves := true

/-- `regexp(pat, group)`: the pattern matches here and the group takes part in the match. -/
def Terminal.regexp (m : Matcher τ β) : Terminal τ β where
  hit s i :=
    match m.run s i with
    | none => .ok none
    | some (j, v) => v.bind fun v => .ok (v.map fun v => (v, j))
  expected := []
  insertion := none
  moves := true

/-- The parser `p` is the terminal `t`. -/
inductive IsTerminal : {α : Type} → P τ ρ Γ α → Terminal τ α → Prop
  | satisfy (test : τ → Except Exn Bool) : IsTerminal (.satisfy test) (.satisfy test)
  | sym (x : τ) (l : String) : IsTerminal (.sym x l) (.sym x l)
  | literal (x : List τ) (l : String) (h : x ≠ []) : IsTerminal (.literal x l h) (.literal x l)
  | regexp {β : Type} (m : Matcher τ β) : IsTerminal (.regexp m) (.regexp m)

/-- The insertion a terminal offers: if it has one, and insertions are left. -/
def Terminal.inserts (t : Terminal τ α) (s : List τ) (pos : Nat) (ctx : Ctx τ) (k : Int) :
    List (Repair τ α) :=
  match t.insertion with
  | none => []
  | some (v, l) =>
    if k = 0 then []
    else [{ cost := 1, prio := none, ins := k - 1,
            ops := [{ op := .insert l, loc := ctx.getLoc s pos, expected := t.expected }],
            value := v, pos := pos, ctx := ctx, consumed := true }]

/-- Skipping `n` elements and then matching `v`, up to `j`. -/
def Terminal.skips (t : Terminal τ α) (s : List τ) (pos : Nat) (ctx : Ctx τ) (ins : Int) (n : Nat)
    (v : α) (j : Nat) : Repair τ α :=
  { cost := n, prio := some 0, ins := ins,
    ops := [{ op := .skip n, loc := ctx.getLoc s pos, expected := t.expected }],
    value := v, pos := j, ctx := ctx.updateLoc s j, consumed := true }

omit [BEq τ] in
theorem testAt_hit (test : τ → Except Exn Bool) (s : List τ) (i : Nat) :
    testAt test s i = ((Terminal.satisfy test).hit s i).map (Option.map Prod.fst) := by
  unfold testAt Terminal.satisfy
  simp only
  cases s[i]? with
  | none => rfl
  | some t =>
    simp only
    cases test t with
    | error e => rfl
    | ok b => cases b <;> rfl

theorem symAt_hit (x : τ) (l : String) (s : List τ) (i : Nat) :
    Except.ok (symAt x s i) = ((Terminal.sym x l).hit s i).map (Option.map Prod.fst) := by
  unfold symAt Terminal.sym
  simp only
  cases s[i]? with
  | none => rfl
  | some t => simp only; split <;> rfl

/-- The four terminals seen uniformly: the plain function. -/
theorem terminal_fast {t : Terminal τ α} (ht : IsTerminal p t) (n : Nat) :
    (denote env n p).fast s pos ctx = (Out.ofExcept (t.hit s pos)).bind fun
      | some (v, j) => .ret (.ok ⟨v, j, if t.moves then ctx.updateLoc s j else ctx, [],
          decide (j ≠ pos)⟩)
      | none => .ret (.error { loc := ctx.getLoc s pos, expected := t.expected }) := by
  cases ht with
  | satisfy test =>
    simp only [denote, denoteWith, satisfyFns, satisfyFast, testAt_hit]
    simp only [Terminal.satisfy]
    cases s[pos]? with
    | none => rfl
    | some x =>
      simp only
      cases test x with
      | error e => rfl
      | ok b => cases b <;> simp [Except.map, Except.bind]
  | sym x l =>
    simp only [denote, denoteWith, symFns, symFast, symAt]
    simp only [Terminal.sym]
    cases s[pos]? with
    | none => rfl
    | some y => cases hy : y == x <;> simp [hy]
  | literal x l h =>
    simp only [denote, denoteWith, literalFns, literalFast, startsWith]
    simp only [Terminal.literal]
    rcases Bool.eq_false_or_eq_true (x.isPrefixOf (s.drop pos)) with hp | hp <;> simp [hp, h]
  | regexp m =>
    simp only [denote, denoteWith, regexpFns, regexpFast, Matcher.at]
    simp only [Terminal.regexp]
    cases m.run s pos with
    | none => rfl
    | some x =>
      obtain ⟨j, v⟩ := x
      cases v with
      | error e => rfl
      | ok v => cases v <;> simp [Except.bind]

/-- C31. A terminal that matches at the position succeeds with what it matches, in both modes. -/
theorem C31_match {t : Terminal τ α} (ht : IsTerminal p t) {v : α} {j : Nat}
    (h : t.hit s pos = .ok (some (v, j))) :
    (∃ ctx', Reads env p s pos ctx v j ctx') ∧
      ∀ rem, ∃ r : Ok τ α, RunRec env p s pos ctx ins rem (.ret (.ok r)) ∧ r.value = v ∧ r.pos = j := by
  have h1 := terminal_fast (env := env) (s := s) (pos := pos) (ctx := ctx) ht 0
  simp only [h, Out.ofExcept_ok, Out.bind_ret] at h1
  exact ⟨⟨_, _, _, 0, h1⟩, fun rem => ⟨_, ⟨0, (sim_denote env 0 p).ok h1 ins rem⟩, rfl, rfl⟩⟩

/-- C31. A terminal that does not match fails without consuming, expecting its label, at the current
location; without recovery, and while alternatives are tried. -/
theorem C31_no_match {t : Terminal τ α} (ht : IsTerminal p t) (h : t.hit s pos = .ok none) :
    Fails env p s pos ctx ⟨ctx.getLoc s pos, t.expected, false⟩ ∧
      RunRec env p s pos ctx ins none (.ret (.error ⟨ctx.getLoc s pos, t.expected, false⟩)) := by
  have h1 := terminal_fast (env := env) (s := s) (pos := pos) (ctx := ctx) ht 0
  simp only [h, Out.ofExcept_ok, Out.bind_ret] at h1
  exact ⟨⟨0, h1⟩, ⟨0, (sim_denote env 0 p).error h1 rfl ins⟩⟩

/-- C31. A terminal's callback that raises. -/
theorem C31_raises {t : Terminal τ α} (ht : IsTerminal p t) {e : Exn}
    (h : t.hit s pos = .error e) :
    RunPlain env p s pos ctx (.raise e) ∧ ∀ rem, RunRec env p s pos ctx ins rem (.raise e) := by
  have h1 := terminal_fast (env := env) (s := s) (pos := pos) (ctx := ctx) ht 0
  simp only [h, Out.ofExcept_error, Out.bind_raise] at h1
  exact ⟨⟨0, h1⟩, fun rem => ⟨0, (sim_denote env 0 p).raise h1 ins rem⟩⟩

/-- The four terminals seen uniformly: the recovering function where there is no match. -/
theorem terminal_fn {t : Terminal τ α} (ht : IsTerminal p t) (h : t.hit s pos = .ok none) (n : Nat) :
    (denote env n p).fn s pos ctx ins (some k) =
      (Out.ofExcept (scan (t.hit s) (s.length - (pos + 1)) (pos + 1))).bind fun
      | some (cur, (v, j)) => .ret (.recovered
          { repairs := t.inserts s pos ctx k ++ [t.skips s pos ctx ins (cur - pos) v j],
            minPrio := some (cur - pos), loc := ctx.getLoc s pos, expected := t.expected })
      | none =>
        if t.insertion.isSome then .ret (.recovered
          { repairs := t.inserts s pos ctx k, minPrio := none, loc := ctx.getLoc s pos,
            expected := t.expected })
        else .ret (.error { loc := ctx.getLoc s pos, expected := t.expected }) := by
  cases ht with
  | satisfy test =>
    have h0 : testAt test s pos = .ok none := by rw [testAt_hit, h]; rfl
    simp only [denote, denoteWith, satisfyFns, satisfyFn, h0, Out.ofExcept_ok, Out.bind_def,
      Out.bind_ret, scan_map (testAt_hit test s)]
    cases hs : scan ((Terminal.satisfy test).hit s) (s.length - (pos + 1)) (pos + 1) with
    | error e => rfl
    | ok o =>
      cases o with
      | none => rfl
      | some x =>
        obtain ⟨cur, v, j⟩ := x
        have h3 := (scan_some hs).2.2.1
        have : j = cur + 1 := by
          simp only [Terminal.satisfy] at h3
          split at h3
          · simp at h3
          · next x _ =>
            cases hb : test x with
            | error e => simp [hb, Except.bind] at h3
            | ok b => cases b <;> simp [hb, Except.bind] at h3; exact h3.2.symm
        subst this
        rfl
  | sym x l =>
    have h0 : symAt x s pos = none := by
      have := symAt_hit x l s pos
      rw [h] at this
      simpa [Except.map] using this
    simp only [denote, denoteWith, symFns, symFn, h0, Out.bind_def,
      scan_map (fun c => symAt_hit x l s c)]
    have hi : (if k ≠ 0 then [makeInsert k x pos ctx (ctx.getLoc s pos) l [l]] else [])
        = (Terminal.sym x l).inserts s pos ctx k := by
      simp only [Terminal.inserts, Terminal.sym]
      by_cases hk : k = 0 <;> simp [hk, makeInsert]
    rw [hi]
    cases hs : scan ((Terminal.sym x l).hit s) (s.length - (pos + 1)) (pos + 1) with
    | error e => rfl
    | ok o =>
      cases o with
      | none => rfl
      | some y =>
        obtain ⟨cur, v, j⟩ := y
        have h3 := (scan_some hs).2.2.1
        have : j = cur + 1 := by
          simp only [Terminal.sym] at h3
          split at h3
          · simp at h3
          · split at h3
            · simp at h3; exact h3.2.symm
            · simp at h3
        subst this
        rfl
  | literal x l hx =>
    have h0 : startsWith x s pos = false := by
      simp only [Terminal.literal, Except.ok.injEq] at h
      split at h
      · simp at h
      · next hn => simpa [startsWith] using hn
    have hh : ∀ c, (Except.ok (if startsWith x s c then some () else none) : Except Exn (Option Unit))
        = ((Terminal.literal x l).hit s c).map (Option.map fun _ => ()) := by
      intro c
      simp only [Terminal.literal, startsWith]
      rcases Bool.eq_false_or_eq_true (x.isPrefixOf (s.drop c)) with hp | hp <;>
        simp [hp, Except.map]
    simp only [denote, denoteWith, literalFns, literalFn, h0, Bool.false_eq_true, if_false,
      Out.bind_def, scan_map hh]
    have hi : (if k ≠ 0 then [makeInsert k x pos ctx (ctx.getLoc s pos) l [l]] else [])
        = (Terminal.literal x l).inserts s pos ctx k := by
      simp only [Terminal.inserts, Terminal.literal]
      by_cases hk : k = 0 <;> simp [hk, makeInsert]
    rw [hi]
    cases hs : scan ((Terminal.literal x l).hit s) (s.length - (pos + 1)) (pos + 1) with
    | error e => rfl
    | ok o =>
      cases o with
      | none => rfl
      | some y =>
        obtain ⟨cur, v, j⟩ := y
        have h3 := (scan_some hs).2.2.1
        simp only [Terminal.literal, Except.ok.injEq] at h3
        split at h3
        · simp only [Option.some.injEq, Prod.mk.injEq] at h3
          obtain ⟨rfl, rfl⟩ := h3
          rfl
        · simp at h3
  | regexp m =>
    have hh : ∀ c, m.at s c = ((Terminal.regexp m).hit s c).map
        (Option.map fun x : _ × Nat => (x.2, x.1)) := by
      intro c
      simp only [Terminal.regexp, Matcher.at]
      cases m.run s c with
      | none => rfl
      | some x =>
        obtain ⟨j, v⟩ := x
        cases v with
        | error e => rfl
        | ok v => cases v <;> rfl
    have h0 : m.at s pos = .ok none := by rw [hh, h]; rfl
    simp only [denote, denoteWith, regexpFns, regexpFn, h0, Out.ofExcept_ok, Out.bind_def,
      Out.bind_ret, scan_map hh]
    cases hs : scan ((Terminal.regexp m).hit s) (s.length - (pos + 1)) (pos + 1) with
    | error e => rfl
    | ok o =>
      cases o with
      | none => rfl
      | some x => rfl

/-- C31. During recovery a terminal that does not match at `pos` offers, after the insertion (if it
has one and insertions are left), to skip to the nearest later position `cur` at which it matches, and
then gives what it matches there. -/
theorem C31_skip {t : Terminal τ α} (ht : IsTerminal p t) {cur j : Nat} {v : α}
    (h : ∀ c, pos ≤ c → c < cur → t.hit s c = .ok none) (hlt : pos < cur) (hcur : cur < s.length)
    (hm : t.hit s cur = .ok (some (v, j))) :
    ∃ r, RunRec env p s pos ctx ins (some k) (.ret (.recovered r)) ∧
      r.repairs = t.inserts s pos ctx k ++ [t.skips s pos ctx ins (cur - pos) v j] ∧
      r.loc = ctx.getLoc s pos ∧ r.expected = t.expected ∧ r.consumed = false := by
  refine ⟨{ repairs := t.inserts s pos ctx k ++ [t.skips s pos ctx ins (cur - pos) v j],
            minPrio := some (cur - pos), loc := ctx.getLoc s pos, expected := t.expected },
    ⟨0, ?_⟩, rfl, rfl, rfl, rfl⟩
  simp only
  rw [terminal_fn ht (h pos (Nat.le_refl _) hlt) 0, scan_eq_some (c := cur) (b := (v, j))
    (by omega) (by omega) hm fun c h1 h2 => h c (by omega) h2]
  rfl

/-- C31. If it matches nowhere in the rest of the input, `sym` and `literal` offer the insertion only
(nothing if no insertion is left). -/
theorem C31_insert_only {t : Terminal τ α} (ht : IsTerminal p t) (hi : t.insertion ≠ none)
    (h : ∀ c, pos ≤ c → c < max (pos + 1) s.length → t.hit s c = .ok none) :
    ∃ r, RunRec env p s pos ctx ins (some k) (.ret (.recovered r)) ∧
      r.repairs = t.inserts s pos ctx k ∧
      r.loc = ctx.getLoc s pos ∧ r.expected = t.expected ∧ r.consumed = false := by
  refine ⟨{ repairs := t.inserts s pos ctx k, minPrio := none, loc := ctx.getLoc s pos,
            expected := t.expected }, ⟨0, ?_⟩, rfl, rfl, rfl, rfl⟩
  simp only
  rw [terminal_fn ht (h pos (Nat.le_refl _) (by omega)) 0,
    scan_eq_none fun c h1 h2 => h c (by omega) (by omega)]
  simp only [Out.ofExcept_ok, Out.bind_ret, Option.isSome_iff_ne_none.2 hi, if_true]

/-- C31. If it matches nowhere in the rest of the input, `satisfy` and `regexp` fail. -/
theorem C31_no_repair {t : Terminal τ α} (ht : IsTerminal p t) (hi : t.insertion = none)
    (h : ∀ c, pos ≤ c → c < max (pos + 1) s.length → t.hit s c = .ok none) :
    RunRec env p s pos ctx ins (some k)
      (.ret (.error ⟨ctx.getLoc s pos, t.expected, false⟩)) := by
  refine ⟨0, ?_⟩
  simp only
  rw [terminal_fn ht (h pos (Nat.le_refl _) (by omega)) 0,
    scan_eq_none fun c h1 h2 => h c (by omega) (by omega)]
  simp [hi]

/-- C31. If the callback raises on the way, that is raised. -/
theorem C31_skip_raises {t : Terminal τ α} (ht : IsTerminal p t) {cur : Nat} {e : Exn}
    (h : ∀ c, pos ≤ c → c < cur → t.hit s c = .ok none) (hlt : pos < cur) (hcur : cur < s.length)
    (hm : t.hit s cur = .error e) : RunRec env p s pos ctx ins (some k) (.raise e) := by
  refine ⟨0, ?_⟩
  simp only
  rw [terminal_fn ht (h pos (Nat.le_refl _) hlt) 0,
    scan_eq_error (c := cur) (by omega) (by omega) hm fun c h1 h2 => h c (by omega) h2]
  rfl

/-- `sym("b")` at the start of `"aab"`: insert, or skip two. -/
example : ∃ r, RunRec Samples.noEnv (.sym 'b' "'b'") "aab".toList 0 (initCtx defaultGetLoc) 5 (some 5)
      (.ret (.recovered r)) ∧
    r.repairs.map (fun x => (x.cost, x.value, x.pos, x.ops.map OpItem.op)) =
      [(1, 'b', 0, [.insert "'b'"]), (2, 'b', 3, [.skip 2])] := ⟨_, ⟨0, rfl⟩, rfl⟩

example : (Terminal.sym 'b' "'b'").hit "aab".toList 0 = .ok none ∧
    (Terminal.sym 'b' "'b'").hit "aab".toList 1 = .ok none ∧
    (Terminal.sym 'b' "'b'").hit "aab".toList 2 = .ok (some ('b', 3)) := ⟨rfl, rfl, rfl⟩

/-! ### `eof` -/

/-- C32. `eof()` succeeds iff the position is the end of the input, consuming nothing. -/
theorem C32_success_iff {j : Nat} {d : Ctx τ} :
    Reads env (.eof : P τ ρ Γ Unit) s pos ctx () j d ↔ pos = s.length ∧ j = pos ∧ d = ctx := by
  constructor
  · rintro ⟨ex, b, n, h⟩
    simp only [denote, denoteWith, eofFns, eofFast] at h
    split at h
    · next hp =>
      simp only [Out.ret.injEq, Simple.ok.injEq, Ok.mk.injEq] at h
      exact ⟨hp, h.2.1.symm, h.2.2.1.symm⟩
    · simp at h
  · rintro ⟨h, rfl, rfl⟩
    exact ⟨[], false, 0, by simp [denote, denoteWith, eofFns, eofFast, h]⟩

/-- C32. Otherwise it fails, expecting the end of file. -/
theorem C32_failure (h : pos ≠ s.length) :
    Fails env (.eof : P τ ρ Γ Unit) s pos ctx ⟨ctx.getLoc s pos, ["end of file"], false⟩ :=
  ⟨0, by simp [denote, denoteWith, eofFns, eofFast, h]⟩

/-- C32. During recovery it then offers exactly one repair: skip all the remaining elements. -/
theorem C32_repair (h : pos ≠ s.length) :
    ∃ r, RunRec env (.eof : P τ ρ Γ Unit) s pos ctx ins (some k) (.ret (.recovered r)) ∧
      r.consumed = false ∧ r.loc = ctx.getLoc s pos ∧ r.expected = ["end of file"] ∧
      r.repairs.map (fun x => (x.cost, x.pos, x.ins, x.prio.isSome, x.ops)) =
        [(s.length - pos, s.length, ins, true,
          [{ op := .skip (s.length - pos), loc := ctx.getLoc s pos,
             expected := ["end of file"], consumed := false }])] := by
  refine ⟨{ repairs := [makePendingSkip ins () s.length ctx (ctx.getLoc s pos) (s.length - pos)
                ["end of file"]], minPrio := none, loc := ctx.getLoc s pos,
            expected := ["end of file"] }, ⟨0, ?_⟩, rfl, rfl, rfl, rfl⟩
  simp only [denote, denoteWith, eofFns, eofFn, h, if_false]

/-! ### `literal` -/

omit [BEq τ] in
/-- C47. `literal("")` raises `ValueError`. -/
theorem C47_empty (ss : String) :
    (P.literal? [] ss : Except Exn (P τ ρ Γ (List τ))) = .error (.valueError "Expected non-empty value") :=
  rfl

/-- C47. `literal(x)` of a non-empty `x` is a parser; it succeeds iff `x` occurs at the position,
returns `x` and ends after it. -/
theorem C47_literal [LawfulBEq τ] {x : List τ} (ss : String) (hx : x ≠ []) :
    ∃ q : P τ ρ Γ (List τ), P.literal? x ss = .ok q ∧
      ∀ (env : Env τ ρ Γ) s pos (ctx : Ctx τ) v j,
        (∃ d, Reads env q s pos ctx v j d) ↔
          (s.drop pos).take x.length = x ∧ v = x ∧ j = pos + x.length := by
  refine ⟨.literal x ss hx, by simp [P.literal?, hx], fun env s pos ctx v j => ?_⟩
  have hpre : x.isPrefixOf (s.drop pos) = true ↔ (s.drop pos).take x.length = x := by
    rw [List.isPrefixOf_iff_prefix, List.prefix_iff_eq_take, eq_comm]
  constructor
  · rintro ⟨d, ex, b, n, h⟩
    simp only [denote, denoteWith, literalFns, literalFast, startsWith] at h
    cases hp : x.isPrefixOf (s.drop pos) with
    | true =>
      simp only [hp, if_true, Out.ret.injEq, Simple.ok.injEq, Ok.mk.injEq] at h
      exact ⟨hpre.1 hp, h.1.symm, h.2.1.symm⟩
    | false => simp [hp] at h
  · rintro ⟨h, rfl, rfl⟩
    exact ⟨_, _, _, 0, by
      simp only [denote, denoteWith, literalFns, literalFast, startsWith, hpre.2 h, if_true]
      rfl⟩

example : ∃ d, Reads Samples.noEnv (.literal "ab".toList "'ab'" (by simp)) "xab".toList 1
    (initCtx defaultGetLoc) "ab".toList 3 d := ⟨_, _, _, 0, rfl⟩

end Reparsec
