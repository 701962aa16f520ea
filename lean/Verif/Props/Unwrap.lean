import Verif.Lemmas.Basic

/-!
# C28, C43, C44: `unwrap`, error messages, `ParseResult.fmap`
-/

namespace Reparsec

variable {τ α β : Type}

/-! ### C28 -/

/-- The order in which repairs are preferred: cheaper; then further; then not starting with an
automatic insertion (those have `prio = None`). -/
def Repair.Better (a b : Repair τ α) : Prop :=
  a.cost < b.cost ∨ a.cost = b.cost ∧
    (b.pos < a.pos ∨ a.pos = b.pos ∧ (a.prio ≠ none ∧ b.prio = none))

theorem keyLt_iff (a b : Repair τ α) : keyLt a b = true ↔ a.Better b := by
  unfold keyLt Repair.Better
  simp [Option.isSome_iff_ne_none]

theorem Repair.Better.trans {a b c : Repair τ α} (h : a.Better b) (h' : b.Better c) :
    a.Better c := by
  unfold Repair.Better at *
  rcases h with h | ⟨h1, h⟩
  · rcases h' with h' | ⟨h2, _⟩ <;> (left; omega)
  · rcases h' with h' | ⟨h2, h'⟩
    · left; omega
    · right
      refine ⟨by omega, ?_⟩
      rcases h with h | ⟨h3, h4, h5⟩
      · rcases h' with h' | ⟨h3, _⟩ <;> (left; omega)
      · rcases h' with h' | ⟨h6, h7, h8⟩
        · left; omega
        · exact absurd h5 h7

/-- `Better` is a weak order: if `a` beats `b`, then any `c` beats `b` or is beaten by `a`. -/
theorem Repair.Better.or {a b : Repair τ α} (h : a.Better b) (c : Repair τ α) :
    a.Better c ∨ c.Better b := by
  unfold Repair.Better at *
  by_cases h1 : a.cost < c.cost
  · left; left; exact h1
  by_cases h2 : c.cost < b.cost
  · right; left; exact h2
  rcases h with h | ⟨h3, h⟩
  · omega
  by_cases h4 : c.pos < a.pos
  · left; right; exact ⟨by omega, .inl h4⟩
  by_cases h5 : b.pos < c.pos
  · right; right; exact ⟨by omega, .inl h5⟩
  rcases h with h | ⟨h6, h7, h8⟩
  · omega
  by_cases h9 : c.prio = none
  · left; right; exact ⟨by omega, .inr ⟨by omega, h7, h9⟩⟩
  · right; right; exact ⟨by omega, .inr ⟨by omega, h9, h8⟩⟩

theorem Repair.Better.irrefl (a : Repair τ α) : ¬ a.Better a := by
  unfold Repair.Better
  rintro (h | ⟨_, h | ⟨_, h1, h2⟩⟩)
  · omega
  · omega
  · exact h1 h2

/-- `x` is the choice from `l`: the first element that no other element beats. -/
def IsChoice (l : List (Repair τ α)) (x : Repair τ α) : Prop :=
  ∃ l1 l2, l = l1 ++ x :: l2 ∧ (∀ y ∈ l1, x.Better y) ∧ ∀ y ∈ l2, ¬ y.Better x

theorem minRepair_choice (l : List (Repair τ α)) : ∀ b, IsChoice (b :: l) (minRepair b l) := by
  induction l with
  | nil => intro b; exact ⟨[], [], rfl, by simp, by simp⟩
  | cons r rs ih =>
    intro b
    simp only [minRepair]
    by_cases h : keyLt r b = true
    · simp only [h, if_true]
      obtain ⟨l1, l2, h1, h2, h3⟩ := ih r
      refine ⟨b :: l1, l2, by rw [h1]; rfl, ?_, h3⟩
      intro y hy
      rcases List.mem_cons.1 hy with rfl | hy
      · have hb := (keyLt_iff r y).1 h
        cases l1 with
        | nil =>
          simp only [List.nil_append, List.cons.injEq] at h1
          rw [← h1.1]; exact hb
        | cons z l1 =>
          simp only [List.cons_append, List.cons.injEq] at h1
          have := h2 z (by simp)
          rw [← h1.1] at this
          exact this.trans hb
      · exact h2 y hy
    · rw [if_neg h]
      obtain ⟨l1, l2, h1, h2, h3⟩ := ih b
      have hb : ¬ r.Better b := fun hb => h ((keyLt_iff r b).2 hb)
      cases l1 with
      | nil =>
        simp only [List.nil_append, List.cons.injEq] at h1
        refine ⟨[], r :: rs, by simp [← h1.1], by simp, ?_⟩
        intro y hy
        rw [← h1.1]
        rcases List.mem_cons.1 hy with rfl | hy
        · exact hb
        · have := h3 y (h1.2 ▸ hy)
          rwa [← h1.1] at this
      | cons z l1 =>
        simp only [List.cons_append, List.cons.injEq] at h1
        obtain ⟨rfl, h1⟩ := h1
        refine ⟨b :: r :: l1, l2, by rw [List.cons_append, List.cons_append, ← h1], ?_, h3⟩
        intro y hy
        have hbz := h2 b (by simp)
        rcases List.mem_cons.1 hy with rfl | hy
        · exact hbz
        · rcases List.mem_cons.1 hy with rfl | hy
          · rcases hbz.or y with h | h
            · exact h
            · exact absurd h hb
          · exact h2 y (by simp [hy])

theorem minRepair_mem (b : Repair τ α) (l : List (Repair τ α)) : minRepair b l ∈ b :: l := by
  obtain ⟨l1, l2, h, _⟩ := minRepair_choice l b
  rw [h]; simp

theorem IsChoice.best {l : List (Repair τ α)} {x : Repair τ α} (h : IsChoice l x) :
    x ∈ l ∧ ∀ y ∈ l, ¬ y.Better x := by
  obtain ⟨l1, l2, rfl, h2, h3⟩ := h
  refine ⟨by simp, ?_⟩
  intro y hy hb
  rcases List.mem_append.1 hy with hy | hy
  · exact Repair.Better.irrefl _ ((h2 y hy).trans hb)
  · rcases List.mem_cons.1 hy with rfl | hy
    · exact Repair.Better.irrefl _ hb
    · exact h3 y hy hb

/-- C28. If there are candidate repairs, `unwrap` uses one of them: the first one that no other
candidate beats, where a smaller cost beats a larger one, among equal costs a later end position
an earlier one, and among these a repair with a priority one without. `unwrap(recover=True)`
returns its value, `unwrap()` raises its operations, so both use the same repair. -/
theorem C28_unwrap_uses_best (fmt : Loc → String) (rr : Recovered τ α) (h : rr.repairs ≠ []) :
    ∃ x, IsChoice rr.repairs x ∧
      (Result.recovered rr).unwrap fmt true = .ok x.value ∧
      (Result.recovered rr).unwrap fmt false = .error ⟨x.ops.map fun i =>
        { loc := i.loc, locStr := fmt i.loc, expected := i.expected, op := some i.op }⟩ := by
  cases hr : rr.repairs with
  | nil => exact absurd hr h
  | cons x xs =>
    refine ⟨minRepair x xs, minRepair_choice xs x, ?_, ?_⟩
    · simp [Result.unwrap, hr]
    · simp [Result.unwrap, hr, errorItems]

/-- C28, spelled out: the cost is minimal; among the repairs of that cost, the end position is
maximal; among those, it has a priority if any does. -/
theorem C28_minimal {l : List (Repair τ α)} {x : Repair τ α} (h : IsChoice l x) :
    x ∈ l ∧
    (∀ y ∈ l, x.cost ≤ y.cost) ∧
    (∀ y ∈ l, y.cost = x.cost → y.pos ≤ x.pos) ∧
    (∀ y ∈ l, y.cost = x.cost → y.pos = x.pos → x.prio = none → y.prio = none) := by
  obtain ⟨hm, hb⟩ := h.best
  refine ⟨hm, fun y hy => ?_, fun y hy hc => ?_, fun y hy hc hp hn => ?_⟩
  · have := hb y hy
    unfold Repair.Better at this
    omega
  · have := hb y hy
    unfold Repair.Better at this
    omega
  · have := hb y hy
    unfold Repair.Better at this
    by_cases hy' : y.prio = none
    · exact hy'
    · exact absurd (.inr ⟨hc, .inr ⟨hp, hy', hn⟩⟩) this

/-- The choice is unique: "the first of the best" determines it. -/
theorem C28_choice_unique {l : List (Repair τ α)} {x y : Repair τ α} (hx : IsChoice l x)
    (hy : IsChoice l y) : x = y := by
  obtain ⟨a1, a2, rfl, ha1, ha2⟩ := hx
  obtain ⟨b1, b2, h, hb1, hb2⟩ := hy
  have key : ∀ {a1 a2 b1 b2 : List (Repair τ α)} {x y : Repair τ α},
      a1 ++ x :: a2 = b1 ++ y :: b2 → (∀ z ∈ b1, y.Better z) → (∀ z ∈ a2, ¬ z.Better x) →
      a1.length < b1.length → False := by
    intro a1 a2 b1 b2 x y h hb ha hlt
    have h1 : (a1 ++ x :: a2)[a1.length]? = some x := by simp
    rw [h, List.getElem?_append_left hlt] at h1
    have h2 : (b1 ++ y :: b2)[b1.length]? = some y := by simp
    rw [← h, List.getElem?_append_right (by omega)] at h2
    obtain ⟨k, hk⟩ : ∃ k, b1.length - a1.length = k + 1 := ⟨b1.length - a1.length - 1, by omega⟩
    rw [hk, List.getElem?_cons_succ] at h2
    exact ha y (List.mem_of_getElem? h2) (hb x (List.mem_of_getElem? h1))
  rcases Nat.lt_trichotomy a1.length b1.length with hlt | heq | hgt
  · exact (key h hb1 ha2 hlt).elim
  · have h1 : (a1 ++ x :: a2)[a1.length]? = some x := by simp
    rw [h, heq] at h1
    simpa using h1.symm
  · exact (key h.symm ha1 hb2 hgt).elim

/-- A concrete case: equal costs, the one that got further is used. -/
example (r1 r2 : Repair Char Nat) (h1 : r1.cost = 1) (h2 : r2.cost = 1) (h3 : r1.pos = 0)
    (h4 : r2.pos = 3) : IsChoice [r1, r2] r2 := by
  refine ⟨[r1], [], rfl, ?_, by simp⟩
  simp [Repair.Better, h1, h2, h3, h4]

/-! ### C43 -/

/-- "x1, x2, .. or xn" -/
inductive Enumeration : List String → String → Prop
  | two (x y : String) : Enumeration [x, y] (x ++ " or " ++ y)
  | more {x y : String} {rest : List String} {t : String} : Enumeration (y :: rest) t →
      Enumeration (x :: y :: rest) (x ++ ", " ++ t)

/-- What is said about the expected list. -/
inductive ExpectedText : List String → String → Prop
  | nothing : ExpectedText [] "unexpected input"
  | one (x : String) : ExpectedText [x] ("expected " ++ x)
  | more {l : List String} {t : String} : Enumeration l t → ExpectedText l ("expected " ++ t)

/-- What is said about the repair operation. -/
inductive OpText : Option RepairOp → String → Prop
  | nothing : OpText none ""
  | insert (l : String) : OpText (some (.insert l)) (" (inserted " ++ l ++ ")")
  | skipOne : OpText (some (.skip 1)) (" (skipped 1 token)")
  | skip {n : Nat} : n ≠ 1 → OpText (some (.skip n)) (" (skipped " ++ toString n ++ " tokens)")

theorem Enumeration.msg : ∀ (rest : List String) (x y : String),
    Enumeration (x :: y :: rest)
      (joinComma ((x :: y :: rest).dropLast) ++ " or " ++ (y :: rest).getLast (by simp)) := by
  intro rest
  induction rest with
  | nil => intro x y; exact .two x y
  | cons z rest ih =>
    intro x y
    have := Enumeration.more (x := x) (ih y z)
    simp only [List.dropLast_cons_cons, joinComma] at this ⊢
    rw [List.getLast_cons (by simp)]
    rw [← String.append_assoc, ← String.append_assoc] at this
    exact this

theorem opText_exists (op : Option RepairOp) : ∃ o, OpText op o ∧ ∀ res : String,
    (match op with
    | none => res
    | some (.skip n) =>
      res ++ " (" ++ "skipped " ++ toString n ++ " " ++ (if n = 1 then "token" else "tokens")
        ++ ")"
    | some (.insert l) => res ++ " (" ++ "inserted " ++ l ++ ")") = res ++ o := by
  have e1 : " (" ++ "inserted " = " (inserted " := rfl
  have e2 : " (" ++ "skipped " = " (skipped " := rfl
  match op with
  | none => exact ⟨_, .nothing, fun res => by simp⟩
  | some (.insert l) =>
    exact ⟨_, .insert l, fun res => by simp only [← String.append_assoc, ← e1]⟩
  | some (.skip n) =>
    by_cases hn : n = 1
    · subst hn
      refine ⟨_, .skipOne, fun res => ?_⟩
      have : " (skipped 1 token)" = " (" ++ "skipped " ++ toString 1 ++ " " ++ "token" ++ ")" := rfl
      simp only [if_true, this, ← String.append_assoc]
    · refine ⟨_, .skip hn, fun res => ?_⟩
      have : " tokens)" = " " ++ "tokens" ++ ")" := rfl
      simp only [hn, if_false, this, ← e2, ← String.append_assoc]

/-- C43. The message of an error item. -/
theorem C43_message (i : ErrorItem) : ∃ e o, ExpectedText i.expected e ∧ OpText i.op o ∧
    i.msg = "at " ++ i.locStr ++ ": " ++ e ++ o := by
  obtain ⟨loc, ls, ex, op⟩ := i
  obtain ⟨o, ho, heq⟩ := opText_exists op
  match ex with
  | [] => exact ⟨_, o, .nothing, ho, heq _⟩
  | [x] =>
    refine ⟨_, o, .one x, ho, ?_⟩
    refine (heq _).trans ?_
    simp only [← String.append_assoc]
  | x :: y :: rest =>
    refine ⟨_, o, .more (Enumeration.msg rest x y), ho, ?_⟩
    refine (heq _).trans ?_
    simp only [← String.append_assoc]

/-- The texts are determined by the item, so C43 describes the message completely. -/
theorem Enumeration.unique {l : List String} {t t' : String} (h : Enumeration l t)
    (h' : Enumeration l t') : t = t' := by
  induction h generalizing t' with
  | two x y =>
    cases h' with
    | two => rfl
    | more h => cases h
  | more h1 ih =>
    cases h' with
    | two => cases h1
    | more h2 => rw [ih h2]

theorem ExpectedText.unique {l : List String} {t t' : String} (h : ExpectedText l t)
    (h' : ExpectedText l t') : t = t' := by
  cases h with
  | nothing => cases h' with
    | nothing => rfl
    | more h => cases h
  | one x => cases h' with
    | one => rfl
    | more h => cases h
  | more h1 =>
    cases h' with
    | nothing => cases h1
    | one => cases h1
    | more h2 => rw [h1.unique h2]

theorem OpText.unique {o : Option RepairOp} {t t' : String} (h : OpText o t)
    (h' : OpText o t') : t = t' := by
  cases h <;> cases h' <;> first | rfl | contradiction

/-- C43, the other direction: it is the message exactly if it has this form. -/
theorem C43_message_iff (i : ErrorItem) (m : String) : i.msg = m ↔
    ∃ e o, ExpectedText i.expected e ∧ OpText i.op o ∧
      m = "at " ++ i.locStr ++ ": " ++ e ++ o := by
  obtain ⟨e, o, h1, h2, h3⟩ := C43_message i
  constructor
  · rintro rfl; exact ⟨e, o, h1, h2, h3⟩
  · rintro ⟨e', o', h1', h2', rfl⟩
    rw [h3, h1.unique h1', h2.unique h2']

/-- Texts separated by ", ". -/
inductive Joined : List String → String → Prop
  | nil : Joined [] ""
  | one (x : String) : Joined [x] x
  | more {x y : String} {rest : List String} {t : String} : Joined (y :: rest) t →
      Joined (x :: y :: rest) (x ++ ", " ++ t)

/-- C43, `str(ParseError)`: the messages of the items, separated by ", ". -/
theorem C43_str (e : ParseError) : Joined (e.errors.map ErrorItem.msg) e.str := by
  unfold ParseError.str
  generalize e.errors.map ErrorItem.msg = l
  induction l with
  | nil => exact .nil
  | cons x l ih =>
    cases l with
    | nil => exact .one x
    | cons y l => exact .more ih

example : ErrorItem.msg ⟨⟨4, 0, 0⟩, "4", ["')'", "'a'", "'b'"], some (.skip 2)⟩
    = "at 4: expected ')', 'a' or 'b' (skipped 2 tokens)" := rfl

/-! ### C44 -/

/-- C44. `parse(..).fmap(f)` (`types.py:106-107`) changes only the value: `unwrap` gives the
image of the value, or raises the same error. -/
theorem C44_fmap_unwrap (fmt : Loc → String) (b : Bool) (f : α → β) (r : Result τ α) :
    (r.fmap f).unwrap fmt b =
      match r.unwrap fmt b with
      | .ok v => .ok (f v)
      | .error e => .error e := by
  have hmin : ∀ (l : List (Repair τ α)) y,
      minRepair (y.fmap f) (l.map (Repair.fmap f)) = (minRepair y l).fmap f := by
    intro l
    induction l with
    | nil => intro y; rfl
    | cons z l ih =>
      intro y
      simp only [List.map_cons, minRepair]
      have : keyLt (z.fmap f) (y.fmap f) = keyLt z y := rfl
      rw [this]
      split <;> exact ih _
  cases r with
  | ok r => rfl
  | error e => rfl
  | recovered r =>
    simp only [Result.fmap, Result.unwrap]
    cases hr : r.repairs with
    | nil => simp
    | cons x xs =>
      simp only [List.map_cons, hmin]
      cases b <;> rfl

/-- The values in a result: the one of a success, those of the repairs. -/
def Result.values : Result τ α → List α
  | .ok r => [r.value]
  | .error _ => []
  | .recovered r => r.repairs.map (·.value)

/-- The repairs that mapping `fn` over repairs gives, if `fn` raises for none of them. -/
inductive Mapped (fn : α → Except Exn β) : List (Repair τ α) → List (Repair τ β) → Prop
  | nil : Mapped fn [] []
  | cons {x : Repair τ α} {v : β} {xs : List (Repair τ α)} {ys : List (Repair τ β)} :
      fn x.value = .ok v → Mapped fn xs ys → Mapped fn (x :: xs) (x.fmap (fun _ => v) :: ys)

theorem repairsFmapM_mapped {fn : α → Except Exn β} {xs : List (Repair τ α)}
    {ys : List (Repair τ β)} (h : repairsFmapM fn xs = .ret ys) : Mapped fn xs ys := by
  induction xs generalizing ys with
  | nil =>
    simp only [repairsFmapM, Out.ret.injEq] at h
    subst h; exact .nil
  | cons x xs ih =>
    simp only [repairsFmapM, Repair.fmapM, Out.bind_def, Out.bind_eq_ret, Out.pure_def,
      Out.ret.injEq, Out.ofExcept_eq_ret] at h
    obtain ⟨y, ⟨v, h1, rfl⟩, zs, h2, rfl⟩ := h
    exact .cons h1 (ih h2)

theorem Mapped.min {fn : α → Except Exn β} {xs : List (Repair τ α)} {ys : List (Repair τ β)}
    (h : Mapped fn xs ys) (x : Repair τ α) (v : β) (hv : fn x.value = .ok v) :
    ∃ w, fn (minRepair x xs).value = .ok w ∧
      minRepair (x.fmap fun _ => v) ys = (minRepair x xs).fmap fun _ => w := by
  induction h generalizing x v with
  | nil => exact ⟨v, hv, rfl⟩
  | @cons z u zs ys h1 _ ih =>
    simp only [minRepair]
    have : keyLt (z.fmap fun _ => u) (x.fmap fun _ => v) = keyLt z x := rfl
    rw [this]
    by_cases hk : keyLt z x = true
    · simp only [hk, if_true]
      exact ih z u h1
    · rw [if_neg hk, if_neg hk]
      exact ih x v hv

/-- C44, for an `fn` that may raise: if `parse(..).fmap(fn)` returns, its `unwrap` gives the image of
the value, or raises the same error. -/
theorem C44_fmap_returns (fmt : Loc → String) (b : Bool) (fn : α → Except Exn β) {r : Result τ α}
    {r' : Result τ β} (h : r.fmapM fn = .ret r') :
    (∀ v, r.unwrap fmt b = .ok v → ∃ w, fn v = .ok w ∧ r'.unwrap fmt b = .ok w) ∧
    (∀ e, r.unwrap fmt b = .error e → r'.unwrap fmt b = .error e) := by
  cases r with
  | ok r =>
    simp only [Result.fmapM, Ok.fmapM, Out.bind_def, Out.bind_eq_ret, Out.pure_def,
      Out.ret.injEq, Out.ofExcept_eq_ret] at h
    obtain ⟨_, ⟨v, h1, rfl⟩, rfl⟩ := h
    simp [Result.unwrap, h1]
  | error e =>
    simp only [Result.fmapM, Out.ret.injEq] at h
    subst h
    simp [Result.unwrap]
  | recovered r =>
    simp only [Result.fmapM, Out.bind_def, Out.bind_eq_ret, Out.pure_def, Out.ret.injEq] at h
    obtain ⟨ys, h1, rfl⟩ := h
    have hm := repairsFmapM_mapped h1
    simp only [Result.unwrap]
    generalize r.repairs = xs at hm
    cases hm with
    | nil => simp
    | @cons x v xs ys h2 h3 =>
      obtain ⟨w, h4, h5⟩ := h3.min x v h2
      simp only [h5]
      cases b
      · simp [Repair.fmap, errorItems]
      · simp [Repair.fmap, h4]

/-- C44. `parse(..).fmap(fn)` raises what `fn` raises for the first value for which it raises: the
value of a success, the values of the repairs in order, whether or not they are used later. -/
theorem C44_fmap_raises_iff (fn : α → Except Exn β) (r : Result τ α) (e : Exn) :
    r.fmapM fn = .raise e ↔
      ∃ l1 v l2, r.values = l1 ++ v :: l2 ∧ fn v = .error e ∧ ∀ u ∈ l1, ∃ w, fn u = .ok w := by
  have list : ∀ l : List (Repair τ α), repairsFmapM fn l = .raise e ↔
      ∃ l1 v l2, l.map (·.value) = l1 ++ v :: l2 ∧ fn v = .error e ∧
        ∀ u ∈ l1, ∃ w, fn u = .ok w := by
    intro l
    induction l with
    | nil => simp [repairsFmapM]
    | cons x l ih =>
      simp only [repairsFmapM, Repair.fmapM, Out.bind_def]
      cases hx : fn x.value with
      | error e' =>
        simp only [Out.ofExcept, Out.bind]
        constructor
        · rintro ⟨⟩
          exact ⟨[], x.value, l.map (·.value), rfl, hx, by simp⟩
        · rintro ⟨l1, v, l2, h1, h2, h3⟩
          cases l1 with
          | nil =>
            simp only [List.map_cons, List.nil_append, List.cons.injEq] at h1
            rw [← h1.1, hx] at h2
            simp only [Except.error.injEq] at h2
            rw [h2]
          | cons u l1 =>
            simp only [List.map_cons, List.cons_append, List.cons.injEq] at h1
            obtain ⟨w, hw⟩ := h3 u (by simp)
            rw [← h1.1, hx] at hw
            simp at hw
      | ok w =>
        simp only [Out.ofExcept, Out.bind_ret, Out.pure_def]
        have : ∀ {k : List (Repair τ β) → Out (List (Repair τ β))} (o : Out (List (Repair τ β))),
            (∀ l, k l ≠ .raise e) → (o.bind k = .raise e ↔ o = .raise e) := by
          intro k o hk
          cases o <;> simp [Out.bind, hk]
        refine (this _ (by simp)).trans (ih.trans ?_)
        constructor
        · rintro ⟨l1, v, l2, h1, h2, h3⟩
          exact ⟨x.value :: l1, v, l2, by simp [h1], h2, by
            intro u hu
            rcases List.mem_cons.1 hu with rfl | hu
            · exact ⟨w, hx⟩
            · exact h3 u hu⟩
        · rintro ⟨l1, v, l2, h1, h2, h3⟩
          cases l1 with
          | nil =>
            simp only [List.map_cons, List.nil_append, List.cons.injEq] at h1
            rw [← h1.1, hx] at h2
            simp at h2
          | cons u l1 =>
            simp only [List.map_cons, List.cons_append, List.cons.injEq] at h1
            exact ⟨l1, v, l2, h1.2, h2, fun u hu => h3 u (by simp [hu])⟩
  cases r with
  | ok r =>
    simp only [Result.fmapM, Ok.fmapM, Out.bind_def, Result.values]
    constructor
    · intro h
      cases hx : fn r.value with
      | ok w => simp [hx, Out.ofExcept, Out.bind] at h
      | error e' =>
        simp only [hx, Out.ofExcept, Out.bind, Out.raise.injEq] at h
        exact ⟨[], r.value, [], rfl, by rw [hx, h], by simp⟩
    · rintro ⟨l1, v, l2, h1, h2, -⟩
      cases l1 with
      | nil =>
        simp only [List.nil_append, List.cons.injEq] at h1
        simp [h1.1, h2, Out.ofExcept, Out.bind]
      | cons u l1 => simp at h1
  | error e' => simp [Result.fmapM, Result.values]
  | recovered r =>
    simp only [Result.fmapM, Out.bind_def, Result.values]
    rw [← list]
    cases repairsFmapM fn r.repairs <;> simp [Out.bind]

/-- C44. `fmap` always comes to an end. -/
theorem C44_fmap_ends (fn : α → Except Exn β) (r : Result τ α) : r.fmapM fn ≠ .diverge := by
  have one : ∀ x : Except Exn β, Out.ofExcept x ≠ .diverge := by intro x; cases x <;> simp [Out.ofExcept]
  have list : ∀ l : List (Repair τ α), repairsFmapM fn l ≠ .diverge := by
    intro l
    induction l with
    | nil => simp [repairsFmapM]
    | cons x l ih =>
      simp only [repairsFmapM, Repair.fmapM, Out.bind_def]
      cases fn x.value with
      | error e => simp [Out.ofExcept, Out.bind]
      | ok w =>
        simp only [Out.ofExcept, Out.bind]
        revert ih
        cases repairsFmapM fn l <;> simp
  cases r with
  | ok r =>
    simp only [Result.fmapM, Ok.fmapM, Out.bind_def]
    cases fn r.value <;> simp [Out.ofExcept, Out.bind]
  | error e => simp [Result.fmapM]
  | recovered r =>
    simp only [Result.fmapM, Out.bind_def]
    have := list r.repairs
    revert this
    cases repairsFmapM fn r.repairs <;> simp [Out.bind]

/-- A concrete case: two repairs, the second is used; `fn` raises for the first one only, and so
does `fmap`. -/
example (r1 r2 : Repair Char Nat) (rr : Recovered Char Nat) (h : rr.repairs = [r1, r2])
    (h1 : r1.value = 0) (h2 : r2.value = 7) (hc : r1.cost = 2) (hc' : r2.cost = 1) :
    (Result.recovered rr).unwrap defaultFmtLoc true = .ok 7 ∧
      (Result.recovered rr).fmapM
        (fun n => if n = 0 then .error (.user "zero") else .ok (n + 1)) = .raise (.user "zero") := by
  refine ⟨?_, ?_⟩
  · simp [Result.unwrap, h, minRepair, keyLt, hc, hc', h2]
  · rw [C44_fmap_raises_iff]
    exact ⟨[], 0, [7], by simp [Result.values, h, h1, h2], by simp, by simp⟩

end Reparsec
