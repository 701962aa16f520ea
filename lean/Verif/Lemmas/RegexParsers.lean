import Verif.Lemmas.RegexCalc

/-!
# The parsers with the regular expressions as written are those with the lengths
-/

namespace Reparsec

open Re JsonText

theorem Matcher.ext_run {τ β : Type} {m m' : Matcher τ β} (h : ∀ s pos, m.run s pos = m'.run s pos) : m = m' := by
  cases m; cases m'
  congr
  funext s pos
  exact h s pos

theorem LexSpec.ext_run {m m' : LexSpec} (h : ∀ s pos, m.run s pos = m'.run s pos) : m = m' := by
  cases m; cases m'
  congr
  funext s pos
  exact h s pos

/-- If nothing can go wrong afterwards, `re` matches as `f` says. -/
def Runs (re : Re) (f : List Char → Option Nat) : Prop :=
  ∀ {β : Type} (l : List Char) (k : Found → Option β), Tot k → re.run l k = (f l).bind (at' k)

theorem Runs.le {re : Re} {f : List Char → Option Nat} (h : Runs re f) {l : List Char} {n : Nat} (hn : f l = some n) :
    n ≤ l.length := by
  have h1 : re.match l = some ⟨n, []⟩ := by
    rw [Re.match, h l some fun j => ⟨_, rfl⟩, hn]; rfl
  exact Re.match_le h1

theorem tot_some (g : Found → β) : Tot fun m => some (g m) := fun _ => ⟨_, rfl⟩

theorem runs_match {re : Re} {f : List Char → Option Nat} (h : Runs re f) (l : List Char) :
    re.match l = (f l).map (⟨·, []⟩) := by
  rw [Re.match, h l some fun j => ⟨_, rfl⟩]
  cases f l <;> rfl

theorem take_takeWhile (f : Char → Bool) (l : List Char) : l.take (l.takeWhile f).length = l.takeWhile f := by
  conv => lhs; arg 2; rw [← List.takeWhile_append_dropWhile (p := f) (l := l)]
  exact List.take_left

theorem ws_run {l : List Char} {k : Found → Option β} (hk : Tot k) : wsRe.run l k = at' k (JsonText.owsLen l) :=
  star_cls hk.tame

theorem token_eq {re : Re} {f : List Char → Option Nat} (h : Runs re f) :
    (Re.seq (.group "1" re) wsRe).matcher String.ofList (some "1") = tokenMatcher f 0 := by
  refine Matcher.ext_run fun s pos => ?_
  simp only [Re.matcher, tokenMatcher, Re.match]
  generalize s.drop pos = l
  have e : (Re.seq (.group "1" re) wsRe).run l some =
      (f l).map fun n => ⟨n + JsonText.owsLen (l.drop n), [("1", l.take n)]⟩ := by
    rw [run_seq, run_group, h]
    · cases f l with
      | none => rfl
      | some n =>
        show wsRe.run (l.drop n) _ = _
        rw [ws_run (tot_some _)]
        rfl
    · intro j
      show ∃ r, wsRe.run (l.drop j) _ = _
      exact ⟨_, ws_run (tot_some _)⟩
  rw [e]
  cases hn : f l with
  | none => rfl
  | some n =>
    have := h.le hn
    have e2 : (l.take n).take (l.take n).length = l.take n := List.take_of_length_le (Nat.le_refl _)
    simp only [Option.map_some, Nat.sub_zero, List.drop_zero, e2]
    simp only [List.length_take, Nat.min_eq_left this, Nat.add_assoc]
    rfl

theorem runs_int : Runs intRe intLen := fun _ _ hk => intRe_run hk.tame
theorem runs_num : Runs numRe numLen := fun _ _ hk => numRe_run hk
theorem runs_bool : Runs boolRe boolLen := fun _ _ _ => boolRe_run
theorem runs_null : Runs nullRe nullLen := fun _ _ _ => nullRe_run

theorem strLen_le {l : List Char} {n : Nat} (h : strLen l = some n) : 2 ≤ n ∧ n ≤ l.length := by
  cases l with
  | nil => cases h
  | cons c l =>
    rw [strLen] at h
    split at h
    · next hc =>
      have := (List.getElem?_eq_some_iff.1 hc.2.2).1
      simp only [Option.some.injEq, List.length_cons] at h ⊢
      omega
    · cases h

theorem str_group {l : List Char} {n : Nat} (h : 2 ≤ n ∧ n ≤ l.length) :
    ((l.take n).take ((l.take n).length - 1)).drop 1 = (l.drop 1).take (n - 2) := by
  rw [List.length_take, Nat.min_eq_left h.2, List.take_take, Nat.min_eq_left (by omega), List.drop_take]
  congr 1

theorem string_eq :
    (Re.seq (strRe "1") wsRe).matcher String.ofList (some "1") = tokenMatcher strLen 1 := by
  refine Matcher.ext_run fun s pos => ?_
  simp only [Re.matcher, tokenMatcher, Re.match]
  generalize s.drop pos = l
  have e : (Re.seq (strRe "1") wsRe).run l some =
      (strLen l).map fun n => ⟨n + JsonText.owsLen (l.drop n), [("1", (l.drop 1).take (n - 2))]⟩ := by
    rw [run_seq, strRe_run]
    cases strLen l with
    | none => rfl
    | some n =>
      show wsRe.run (l.drop n) _ = _
      rw [ws_run (tot_some _)]
      rfl
  rw [e]
  cases hn : strLen l with
  | none => rfl
  | some n =>
    have := strLen_le hn
    simp only [Option.map_some, str_group this]
    simp only [List.length_take, Nat.min_eq_left this.2, Nat.add_assoc]
    rfl

theorem plain_eq {β : Type} {str : List Char → β} {re : Re} {f : List Char → Option Nat} (h : Runs re f)
    (s : List Char) (pos : Nat) :
    (re.matcher str).run s pos =
      (f (s.drop pos)).map fun n => (pos + n, .ok (some (str ((s.drop pos).take n)))) := by
  simp only [Re.matcher, runs_match h]
  cases f (s.drop pos) <;> rfl

theorem matcher_eq {re : Re} {f : List Char → Option Nat} (h : Runs re f) (hf : ∀ l n, f l = some n → n ≤ l.length) :
    re.matcher String.ofList = Yamlish.matcher f hf :=
  Matcher.ext_run fun s pos => plain_eq h s pos

theorem runs_star (f : Char → Bool) : Runs (.star (.cls f)) fun l => some (l.takeWhile f).length :=
  fun _ _ hk => star_cls hk.tame

theorem runs_plus (f : Char → Bool) :
    Runs (plus (.cls f)) fun l => if (l.takeWhile f).length = 0 then none else some (l.takeWhile f).length := by
  intro β l k hk
  rw [plus_cls hk.tame]
  show _ = (if (l.takeWhile f).length = 0 then none else some (l.takeWhile f).length).bind (at' k)
  split <;> rfl

theorem runs_cls (f : Char → Bool) : Runs (.cls f) (oneLen f) := fun l k _ => det_cls f l k

/-! ### The scannerless JSON parser -/

namespace JsonText

variable {F : Type}

theorem AsWritten.ows_eq : (AsWritten.ows : E F String) = JsonText.ows := by
  rw [AsWritten.ows, JsonText.ows]
  congr 1
  exact matcher_eq (runs_star isSpace) _

theorem AsWritten.env_eq (J : Json.Fns F) : AsWritten.env J = JsonText.env J := by
  funext u
  simp only [AsWritten.env, AsWritten.scalar, AsWritten.jsonDict, AsWritten.jsonList, AsWritten.member,
    AsWritten.number, AsWritten.integer, AsWritten.boolean, AsWritten.null, AsWritten.string, AsWritten.token,
    AsWritten.punct, token_eq runs_int, token_eq runs_num, token_eq runs_bool, token_eq runs_null, string_eq,
    AsWritten.ows_eq]
  rfl

theorem AsWritten.parser_eq : (AsWritten.parser : E F (Json.V F)) = JsonText.parser := by
  rw [AsWritten.parser, AsWritten.ows_eq]
  rfl

/-! ### The lexer of the other JSON parser -/

/-- What the lexer needs of a match. -/
abbrev lexed (m : Found) : Nat × Option (String × String) :=
  (m.len, m.caps.getLast?.map fun c => (c.1, String.ofList c.2))

theorem named_eq {kind : String} {re : Re} {f : List Char → Option Nat} (h : Runs re f) (l : List Char) :
    (Re.group kind re).run l (fun m => some (lexed m)) = named kind f 0 l := by
  rw [run_group, h l _ (tot_some _), named]
  cases hn : f l with
  | none => rfl
  | some n =>
    have := h.le hn
    have e2 : (l.take n).take (l.take n).length = l.take n := List.take_of_length_le (Nat.le_refl _)
    simp only [Option.map_some, Nat.sub_zero, List.drop_zero, e2]
    simp only [List.length_take, Nat.min_eq_left this]
    rfl

theorem named_str (kind : String) (l : List Char) :
    (strRe kind).run l (fun m => some (lexed m)) = named kind strLen 1 l := by
  rw [strRe_run, named]
  cases hn : strLen l with
  | none => rfl
  | some n =>
    have := strLen_le hn
    simp only [Option.map_some, str_group this]
    simp only [List.length_take, Nat.min_eq_left this.2]
    rfl

theorem lexLen_eq (l : List Char) : (specRe.match l).map lexed = lexLen l := by
  rw [← Re.run_first, lexLen, specRe]
  simp only [run_alt]
  rw [plus_cls (tot_some _).tame, named_eq (runs_cls _), named_eq runs_bool, named_eq runs_null, named_eq runs_num,
    named_eq runs_int, named_str, named_eq (runs_cls _)]
  show (if JsonText.owsLen l = 0 then none else some (JsonText.owsLen l, none)).or _ = _
  by_cases h : JsonText.owsLen l = 0
  · simp [h]
  · simp [h]

theorem AsWritten.jsonSpec_eq : AsWritten.jsonSpec = JsonText.jsonSpec := by
  refine LexSpec.ext_run fun s pos => ?_
  show ((specRe.match (s.drop pos)).map fun m => LexMatch.mk (pos + m.len) _) =
    (lexLen (s.drop pos)).map fun r => ⟨pos + r.1, r.2⟩
  rw [← lexLen_eq]
  cases specRe.match (s.drop pos) <;> rfl

end JsonText

/-! ### Yamlish -/

namespace Yamlish

theorem runs_ident : Runs (.seq (.cls isStart) (.star (.cls isPart))) identLen := by
  intro β l k hk
  rw [run_seq]
  cases l with
  | nil => rfl
  | cons c l =>
    have := runs_star isPart l _ (hk.shift 1)
    rw [run_cons, identLen]
    simp only [at', List.drop_succ_cons, List.drop_zero]
    rw [this]
    split <;> rfl

theorem runs_eol (space : Char → Bool) : Runs (.seq (chr '\n') (.star (.cls space))) (eolLen space) := by
  intro β l k hk
  rw [run_seq]
  cases l with
  | nil => rfl
  | cons c l =>
    have := runs_star space l _ (hk.shift 1)
    rw [chr, run_cons, eolLen]
    simp only [at', List.drop_succ_cons, List.drop_zero, beq_iff_eq]
    rw [this]
    split <;> rfl

theorem runs_colon : Runs (.seq (.star (.cls isBlank)) (.seq (chr ':') (.star (.cls isBlank)))) colonLen := by
  intro β l k hk
  have h : ∀ (c : Char) (l' : List Char) (j : Nat), l.drop j = c :: l' →
      (Re.seq (chr ':') (.star (.cls isBlank))).run (l.drop j) (fun m => k (Found.append ⟨j, []⟩ m)) =
        if c = ':' then at' k (j + 1 + (l'.takeWhile isBlank).length) else none := by
    intro c l' j hl
    have := runs_star isBlank l' _ ((hk.shift j).shift 1)
    rw [hl, run_seq, chr, run_cons]
    simp only [at', List.drop_succ_cons, List.drop_zero, beq_iff_eq]
    rw [this, Nat.add_assoc]
    rfl
  rw [run_seq, star_cls]
  · show (Re.seq (chr ':') (.star (.cls isBlank))).run (l.drop _) _ = _
    have e : l.drop (l.takeWhile isBlank).length = l.dropWhile isBlank := by
      conv => lhs; arg 2; rw [← List.takeWhile_append_dropWhile (p := isBlank) (l := l)]
      exact List.drop_left
    rw [colonLen]
    cases hd : l.dropWhile isBlank with
    | nil => rw [e, hd]; rfl
    | cons c l' =>
      rw [h c l' _ (e.trans hd)]
      simp only
      split <;> rfl
  · refine .inl fun j n hj => ?_
    obtain ⟨c, l', hl, hc⟩ := oneLen_some hj
    refine (h c l' j hl).trans (if_neg ?_)
    rintro rfl
    exact absurd hc (by decide)

theorem AsWritten.eol_eq (space : Char → Bool) : AsWritten.eol space = Yamlish.eol space :=
  congrArg P.regexp (matcher_eq (runs_eol space) _)
theorem AsWritten.ows_eq (space : Char → Bool) : AsWritten.ows space = Yamlish.ows space :=
  congrArg P.regexp (matcher_eq (runs_star space) _)
theorem AsWritten.ident_eq : AsWritten.ident = Yamlish.ident := congrArg P.regexp (matcher_eq runs_ident _)
theorem AsWritten.colon_eq : AsWritten.colon = Yamlish.colon := congrArg P.regexp (matcher_eq runs_colon _)

theorem AsWritten.env_eq (space : Char → Bool) : AsWritten.env space = Yamlish.env space := by
  funext u
  simp only [AsWritten.env, AsWritten.value, AsWritten.scalar, AsWritten.nested, AsWritten.eol_eq, AsWritten.ident_eq,
    AsWritten.colon_eq]
  rfl

theorem AsWritten.parser_eq (space : Char → Bool) : AsWritten.parser space = Yamlish.parser space := by
  simp only [AsWritten.parser, AsWritten.ows_eq]
  rfl

end Yamlish

/-! ### The calculator -/

namespace Calculator

theorem star_eq (c : Char → Bool) : (Re.star (.cls c)).matcher id = star c := by
  refine Matcher.ext_run fun s pos => ?_
  rw [plain_eq (runs_star c)]
  simp only [star, Option.map_some, id, take_takeWhile]

theorem plus_eq (c : Char → Bool) : (Re.plus (.cls c)).matcher id = plus c := by
  refine Matcher.ext_run fun s pos => ?_
  rw [plain_eq (runs_plus c)]
  simp only [plus, List.length_eq_zero_iff]
  split
  · rfl
  · simp only [Option.map_some, id, take_takeWhile]

theorem one_eq (c : Char → Bool) : (Re.cls c).matcher id = one c := by
  refine Matcher.ext_run fun s pos => ?_
  rw [plain_eq (runs_cls c)]
  have e : s[pos]? = (s.drop pos)[0]? := by simp
  simp only [one, e]
  cases s.drop pos with
  | nil => rfl
  | cons x l => simp only [oneLen, List.getElem?_cons_zero]; split <;> rfl

theorem AsWritten.env_eq (C : Chars) : AsWritten.env C = Calculator.env C := by
  funext u
  simp only [AsWritten.env, AsWritten.term, AsWritten.factor, AsWritten.number, AsWritten.mulOp, AsWritten.addOp,
    AsWritten.lParen, AsWritten.rParen, AsWritten.spaces, star_eq, plus_eq, one_eq]
  rfl

end Calculator

end Reparsec
