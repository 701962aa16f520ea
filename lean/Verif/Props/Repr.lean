import Verif.Spec.Repr
import Verif.Props.Language
import Verif.Props.LL1
import Verif.Lemmas.JsonDumps
import Verif.Props.Calculator
import Verif.Props.Samples

/-!
# C91: the default labels say exactly what is inserted
-/

namespace Reparsec

open PyRepr

namespace PyRepr

theorem HexDigit.iff {c : Char} {n : Nat} : HexDigit c n ↔ JsonText.HexDigit c n := by
  constructor <;> intro h <;> cases h
  · exact .digit _
  · exact .lower _
  · exact .upper _
  · exact .digit _
  · exact .lower _
  · exact .upper _

theorem HexDigit.functional {c : Char} {n n' : Nat} (h : HexDigit c n) (h' : HexDigit c n') : n = n' := by
  rw [← (HexDigit.iff.1 h).isHex.2, ← (HexDigit.iff.1 h').isHex.2]

theorem HexValue.functional {w : List Char} {n n' : Nat} (h : HexValue w n) (h' : HexValue w n') : n = n' := by
  induction h generalizing n' with
  | nil =>
    generalize hw : ([] : List Char) = w at h'
    cases h' with
    | nil => rfl
    | snoc _ _ => simp at hw
  | @snoc w n c k _ hc ih =>
    generalize hw : w ++ [c] = u at h'
    cases h' with
    | nil => simp at hw
    | snoc h1 h2 =>
      obtain ⟨rfl, hcc⟩ := List.append_inj' hw rfl
      cases hcc
      rw [ih h1, hc.functional h2]

theorem hexChar_digit (n : Nat) (h : n < 16) : HexDigit (hexChar n) n := HexDigit.iff.2 (JsonText.hexChar_digit n h)

theorem hex_length (k n : Nat) : (hex k n).length = k := by
  induction k generalizing n with
  | zero => rfl
  | succ k ih => rw [hex, List.length_append, ih]; rfl

theorem hex_value (k n : Nat) (h : n < 16 ^ k) : HexValue (hex k n) n := by
  induction k generalizing n with
  | zero =>
    obtain rfl : n = 0 := by simpa using h
    exact .nil
  | succ k ih =>
    have h1 := ih (n / 16) (by rw [Nat.pow_succ] at h; omega)
    have h2 := HexValue.snoc h1 (hexChar_digit (n % 16) (by omega))
    rwa [show 16 * (n / 16) + n % 16 = n by omega] at h2

theorem Short.functional {e c c' : Char} (h : Short e c) (h' : Short e c') : c = c' := by
  cases h <;> cases h' <;> rfl

theorem Short.not_hex {e c : Char} (h : Short e c) : e ≠ 'x' ∧ e ≠ 'u' ∧ e ≠ 'U' := by
  cases h <;> decide

theorem hexEscape_inj {h h' w w' : List Char} {c c' : Char} {n : Nat} (hl : h.length = n) (hl' : h'.length = n)
    (hv : HexValue h c.toNat) (hv' : HexValue h' c'.toNat) (he : h ++ w = h' ++ w') : c = c' ∧ w = w' := by
  obtain ⟨rfl, rfl⟩ := List.append_inj he (hl.trans hl'.symm)
  exact ⟨Char.toNat_inj.1 (hv.functional hv'), rfl⟩

theorem Inside.functional {q : Char} {w s s' : List Char} (h : Inside q w s) (h' : Inside q w s') : s = s' := by
  induction h generalizing s' with
  | nil =>
    generalize hw : ([] : List Char) = w at h'
    cases h' with
    | nil => rfl
    | char => cases hw
    | short => cases hw
    | hex2 => cases hw
    | hex4 => cases hw
    | hex8 => cases hw
  | @char c w s h1 h2 h3 h4 _ ih =>
    generalize hw : c :: w = u at h'
    cases h' with
    | nil => cases hw
    | char _ _ _ _ h' => cases hw; rw [ih h']
    | short => cases hw; exact absurd rfl h2
    | hex2 => cases hw; exact absurd rfl h2
    | hex4 => cases hw; exact absurd rfl h2
    | hex8 => cases hw; exact absurd rfl h2
  | @short e c w s h1 _ ih =>
    generalize hw : '\\' :: e :: w = u at h'
    cases h' with
    | nil => cases hw
    | char _ h2 => cases hw; exact absurd rfl h2
    | short h2 h' => cases hw; rw [ih h', h1.functional h2]
    | hex2 => cases hw; exact absurd rfl h1.not_hex.1
    | hex4 => cases hw; exact absurd rfl h1.not_hex.2.1
    | hex8 => cases hw; exact absurd rfl h1.not_hex.2.2
  | @hex2 h c w s hl hv _ ih =>
    generalize hw : '\\' :: 'x' :: (h ++ w) = u at h'
    cases h' with
    | nil => cases hw
    | char _ h2 => cases hw; exact absurd rfl h2
    | short h2 => cases hw; exact absurd rfl h2.not_hex.1
    | hex2 hl' hv' h' =>
      obtain ⟨rfl, rfl⟩ := hexEscape_inj hl hl' hv hv' (List.cons.inj (List.cons.inj hw).2).2
      rw [ih h']
    | hex4 => simp at hw
    | hex8 => simp at hw
  | @hex4 h c w s hl hv _ ih =>
    generalize hw : '\\' :: 'u' :: (h ++ w) = u at h'
    cases h' with
    | nil => cases hw
    | char _ h2 => cases hw; exact absurd rfl h2
    | short h2 => cases hw; exact absurd rfl h2.not_hex.2.1
    | hex2 => simp at hw
    | hex4 hl' hv' h' =>
      obtain ⟨rfl, rfl⟩ := hexEscape_inj hl hl' hv hv' (List.cons.inj (List.cons.inj hw).2).2
      rw [ih h']
    | hex8 => simp at hw
  | @hex8 h c w s hl hv _ ih =>
    generalize hw : '\\' :: 'U' :: (h ++ w) = u at h'
    cases h' with
    | nil => cases hw
    | char _ h2 => cases hw; exact absurd rfl h2
    | short h2 => cases hw; exact absurd rfl h2.not_hex.2.2
    | hex2 => simp at hw
    | hex4 => simp at hw
    | hex8 hl' hv' h' =>
      obtain ⟨rfl, rfl⟩ := hexEscape_inj hl hl' hv hv' (List.cons.inj (List.cons.inj hw).2).2
      rw [ih h']

theorem Denotes.functional {w : String} {s s' : List Char} (h : Denotes w s) (h' : Denotes w s') : s = s' := by
  obtain ⟨q, b, -, hw, hi⟩ := h
  obtain ⟨q', b', -, hw', hi'⟩ := h'
  rw [hw] at hw'
  obtain ⟨rfl, he⟩ := List.cons.inj hw'
  rw [List.append_cancel_right he] at hi
  exact hi.functional hi'

theorem inside_escape (printable : Char → Bool) {q c : Char} {w s : List Char} (hq : q = '\'' ∨ q = '"')
    (h : Inside q w s) : Inside q (escape printable q c ++ w) (c :: s) := by
  have hx : ∀ n, c.toNat < 256 → n = c.toNat → Inside q ('\\' :: 'x' :: (hex 2 n ++ w)) (c :: s) :=
    fun n hc hn => by subst hn; exact .hex2 (hex_length _ _) (hex_value _ _ (by simpa using hc)) h
  unfold escape
  split
  · rename_i hc
    have : Short c c := by
      rcases hc with rfl | rfl
      · rcases hq with rfl | rfl
        · exact .single
        · exact .double
      · exact .backslash
    exact .short this h
  · rename_i hc
    simp only [not_or] at hc
    split
    · rename_i h1; subst h1; exact .short .tab h
    · split
      · rename_i h1; subst h1; exact .short .lineFeed h
      · split
        · rename_i h1; subst h1; exact .short .carriageReturn h
        · rename_i h1 h2 h3
          split
          · exact hx _ (by omega) rfl
          · split
            · exact .char hc.1 hc.2 h2 h3 h
            · split
              · exact hx _ (by assumption) rfl
              · split
                · exact .hex4 (hex_length _ _) (hex_value _ _ (by simpa using (by assumption))) h
                · refine .hex8 (hex_length _ _) (hex_value _ _ ?_) h
                  have : c.toNat < 1114112 := by
                    have := c.valid
                    simp only [UInt32.isValidChar, Nat.isValidChar] at this
                    show c.val.toNat < _
                    omega
                  exact Nat.lt_trans this (by decide)

theorem quote_cases (s : List Char) : quote s = '\'' ∨ quote s = '"' := by
  unfold quote
  split
  · exact .inr rfl
  · exact .inl rfl

end PyRepr

/-! ### Labels -/

/-- **C91**: `repr(s)` is a string literal, which denotes `s`. -/
theorem C91_literal (printable : Char → Bool) (s : List Char) : Denotes (repr printable s) s := by
  refine ⟨quote s, s.flatMap (escape printable (quote s)), quote_cases s, by simp [PyRepr.repr], ?_⟩
  have hq := quote_cases s
  generalize quote s = q at hq
  induction s with
  | nil => exact .nil
  | cons c s ih => exact inside_escape printable hq ih

/-- C91: and nothing else. -/
theorem C91_denotes (printable : Char → Bool) {s t : List Char} (h : Denotes (repr printable s) t) : t = s :=
  h.functional (C91_literal printable s)

/-- C91: different strings have different labels. -/
theorem C91_injective (printable : Char → Bool) (s t : List Char) : repr printable s = repr printable t ↔ s = t :=
  ⟨fun h => C91_denotes printable (h ▸ C91_literal printable s), fun h => h ▸ rfl⟩

/-- C91: two symbols have the same default label only if they are the same, and a symbol and a literal only if the
literal consists of that symbol. -/
theorem C91_symbols (printable : Char → Bool) (x y : Char) (t : List Char) :
    (repr printable [x] = repr printable [y] ↔ x = y) ∧ (repr printable [x] = repr printable t ↔ t = [x]) := by
  rw [C91_injective, C91_injective]
  exact ⟨by simp, eq_comm⟩

/-! ### How labels look -/

namespace PyRepr

theorem hexChar_visible {n : Nat} (h : n < 16) : 32 ≤ (hexChar n).toNat ∧ (hexChar n).toNat < 127 := by
  have : ∀ n : Fin 16, 32 ≤ (hexChar n).toNat ∧ (hexChar n).toNat < 127 := by decide
  exact this ⟨n, h⟩

theorem hex_visible (k n : Nat) : ∀ c ∈ hex k n, 32 ≤ c.toNat ∧ c.toNat < 127 := by
  induction k generalizing n with
  | zero => intro c hc; cases hc
  | succ k ih =>
    intro c hc
    rw [hex, List.mem_append] at hc
    rcases hc with hc | hc
    · exact ih _ c hc
    · rw [List.mem_singleton] at hc
      exact hc ▸ hexChar_visible (by omega)

theorem escape_visible (printable : Char → Bool) {q c : Char} (hq : q = '\'' ∨ q = '"') :
    ∀ d ∈ escape printable q c, (32 ≤ d.toNat ∧ d.toNat < 127) ∨ (127 < d.toNat ∧ printable d = true) := by
  have hh : ∀ e k, 32 ≤ e.toNat ∧ e.toNat < 127 → ∀ d ∈ '\\' :: e :: hex k c.toNat,
      (32 ≤ d.toNat ∧ d.toNat < 127) ∨ (127 < d.toNat ∧ printable d = true) := by
    intro e k he d hd
    simp only [List.mem_cons] at hd
    rcases hd with rfl | rfl | hd
    · exact .inl (by decide)
    · exact .inl he
    · exact .inl (hex_visible _ _ d hd)
  intro d hd
  unfold escape at hd
  split at hd
  · rename_i hc
    simp only [List.mem_cons, List.not_mem_nil, or_false] at hd
    rcases hd with rfl | rfl
    · exact .inl (by decide)
    · rcases hc with rfl | rfl
      · rcases hq with rfl | rfl
        · exact .inl (by decide)
        · exact .inl (by decide)
      · exact .inl (by decide)
  · have h2 : ∀ e : Char, 32 ≤ e.toNat ∧ e.toNat < 127 → d ∈ ['\\', e] →
        (32 ≤ d.toNat ∧ d.toNat < 127) ∨ (127 < d.toNat ∧ printable d = true) := by
      intro e he hd
      simp only [List.mem_cons, List.not_mem_nil, or_false] at hd
      rcases hd with rfl | rfl
      · exact .inl (by decide)
      · exact .inl he
    split at hd
    · exact h2 _ (by decide) hd
    · split at hd
      · exact h2 _ (by decide) hd
      · split at hd
        · exact h2 _ (by decide) hd
        · split at hd
          · exact hh _ _ (by decide) d hd
          · rename_i h1 
            split at hd
            · rename_i h3
              rw [List.mem_singleton] at hd
              subst hd
              simp only [not_or, Nat.not_lt] at h1
              rcases h3 with h3 | h3
              · exact .inl ⟨h1.1, h3⟩
              · by_cases h4 : d.toNat < 127
                · exact .inl ⟨h1.1, h4⟩
                · exact .inr ⟨by have := h1.2; omega, h3⟩
            · split at hd
              · exact hh _ _ (by decide) d hd
              · split at hd
                · exact hh _ _ (by decide) d hd
                · exact hh _ _ (by decide) d hd

end PyRepr

/-- **C91**: labels have printable characters only; in particular they have no line breaks. -/
theorem C91_printable (printable : Char → Bool) (s : List Char) :
    ∀ c ∈ (repr printable s).toList, (32 ≤ c.toNat ∧ c.toNat < 127) ∨ (127 < c.toNat ∧ printable c = true) := by
  intro c hc
  have hq : (32 ≤ (quote s).toNat ∧ (quote s).toNat < 127) := by
    rcases quote_cases s with h | h <;> rw [h] <;> decide
  simp only [PyRepr.repr, String.toList_ofList, List.mem_cons, List.mem_append, List.mem_flatMap,
    List.not_mem_nil, or_false] at hc
  rcases hc with rfl | ⟨d, -, hd⟩ | rfl
  · exact .inl hq
  · exact escape_visible printable (quote_cases s) c hd
  · exact .inl hq

/-- C91: a string of printable characters without quotes and backslashes is shown as it is, in single quotes. -/
theorem C91_plain (printable : Char → Bool) {s : List Char}
    (h : ∀ c ∈ s, c ≠ '\'' ∧ c ≠ '\\' ∧ ((32 ≤ c.toNat ∧ c.toNat < 127) ∨ (127 < c.toNat ∧ printable c = true))) :
    (repr printable s).toList = '\'' :: (s ++ ['\'']) := by
  have hq : quote s = '\'' := if_neg fun hc => (h _ hc.1).1 rfl
  have hs : s.flatMap (escape printable '\'') = s := by
    clear hq
    induction s with
    | nil => rfl
    | cons c s ih =>
      obtain ⟨h1, h2, h3⟩ := h c (List.mem_cons_self ..)
      have hc : escape printable '\'' c = [c] := by
        have h32 : 32 ≤ c.toNat := by rcases h3 with h3 | h3 <;> omega
        have ht : ∀ d : Char, d.toNat < 32 → c ≠ d := by rintro d hd rfl; omega
        rw [escape, if_neg (by simp [h1, h2]), if_neg (ht _ (by decide)), if_neg (ht _ (by decide)),
          if_neg (ht _ (by decide)), if_neg (by omega), if_pos]
        rcases h3 with h3 | h3
        · exact .inl h3.2
        · exact .inr h3.2
      rw [List.flatMap_cons, hc, ih fun d hd => h d (List.mem_cons_of_mem _ hd)]
      rfl
  rw [PyRepr.repr, hq, hs, String.toList_ofList]

/-- C91: labels are in single quotes; in double quotes just if there are single quotes to show, and no double quotes. -/
theorem C91_quotes (printable : Char → Bool) (s : List Char) :
    (('\'' ∈ s ∧ '"' ∉ s) → ∃ b, (repr printable s).toList = '"' :: (b ++ ['"'])) ∧
    (¬('\'' ∈ s ∧ '"' ∉ s) → ∃ b, (repr printable s).toList = '\'' :: (b ++ ['\''])) := by
  constructor
  · intro h
    have hq : quote s = '"' := if_pos h
    exact ⟨s.flatMap (escape printable '"'), by rw [PyRepr.repr, hq, String.toList_ofList]⟩
  · intro h
    have hq : quote s = '\'' := if_neg h
    exact ⟨s.flatMap (escape printable '\''), by rw [PyRepr.repr, hq, String.toList_ofList]⟩

/-- C91: `sym(x)` has a label that denotes `x`, and it is the parser of `x`. -/
theorem C91_sym {ρ : Type} {Γ : ρ → Type} (printable : Char → Bool) (x : Char) :
    ∃ l, Denotes l [x] ∧ (PyRepr.sym printable x : P Char ρ Γ Char) = .sym x l :=
  ⟨_, C91_literal printable [x], rfl⟩

/-- C91: so does `literal(s)`. -/
theorem C91_literal_parser {ρ : Type} {Γ : ρ → Type} (printable : Char → Bool) (s : List Char) (h : s ≠ []) :
    ∃ l, Denotes l s ∧ (PyRepr.literal printable s h : P Char ρ Γ (List Char)) = .literal s l h :=
  ⟨_, C91_literal printable s, rfl⟩

/-- C91: these have the default labels. -/
theorem C91_defaults {ρ : Type} {Γ : ρ → Type} (printable : Char → Bool) (env : Env Char ρ Γ) (x : Char) (s : List Char)
    (h : s ≠ []) : defaultLabels printable env (PyRepr.sym printable x) ∧
    defaultLabels printable env (PyRepr.literal printable s h) :=
  ⟨rfl, rfl⟩

/-! ### Carrying out what is reported -/

/-- There is a function that reads string literals, as `ast.literal_eval` does. -/
theorem C91_reader : ∃ tok : String → List Char, ∀ w s, Denotes w s → tok w = s := by
  classical
  refine ⟨fun w => if h : ∃ s, Denotes w s then h.choose else [], fun w s h => ?_⟩
  have hw : ∃ s, Denotes w s := ⟨s, h⟩
  show (if h : ∃ s, Denotes w s then h.choose else []) = s
  rw [dif_pos hw]
  exact hw.choose_spec.functional h

variable {ρ : Type} {Γ : ρ → Type} {α : Type} {env : Env Char ρ Γ} {p : P Char ρ Γ α} {s : List Char}
  {printable : Char → Bool} {tok : String → List Char}

theorem PyRepr.labelled (ht : ∀ w s, Denotes w s → tok w = s) :
    ∀ {α : Type} (q : P Char ρ Γ α), defaultLabels printable env q → P.labelled env tok q
  | _, .sym s l, h => by
    have h : l = _ := h
    exact ht _ _ (h ▸ C91_literal printable [s])
  | _, .literal s ss h0, h => by
    have h : ss = _ := h
    exact ht _ _ (h ▸ C91_literal printable s)
  | _, .recoverWith p x vs, h => by
    obtain ⟨t, h1, h2⟩ := h
    show Lang env p (tok vs) x
    rwa [ht _ _ h1]
  | _, .recoverWithFn p fn lbl, h => by
    intro s i x hx
    obtain ⟨t, h1, h2⟩ := h s i x hx
    rwa [ht _ _ h1]
  | _, .pure _, _ => trivial
  | _, .pureFn _, _ => trivial
  | _, .unexpected _, _ => trivial
  | _, .eof, _ => trivial
  | _, .satisfy _, _ => trivial
  | _, .regexp _, _ => trivial
  | _, .fmap _ _, _ => trivial
  | _, .alt _ _, _ => trivial
  | _, .bind _ _, _ => trivial
  | _, .seqWith _ _ _, _ => trivial
  | _, .maybe _, _ => trivial
  | _, .many _, _ => trivial
  | _, .attempt _, _ => trivial
  | _, .label _ _, _ => trivial
  | _, .recover _, _ => trivial
  | _, .block _, _ => trivial
  | _, .aligned _, _ => trivial
  | _, .indented _ _, _ => trivial
  | _, .ref _, _ => trivial

theorem PyRepr.labelledEverywhere (ht : ∀ w s, Denotes w s → tok w = s)
    (hp : Everywhere env (defaultLabels printable env) p) : Everywhere env (P.labelled env tok) p :=
  ⟨hp.1.mono (fun q => labelled ht q), fun i q hq => (hp.2 i q hq).mono fun q => labelled ht q⟩

/-- **C91**: if the labels are the default ones, then the reported errors can be carried out on the text as they are, by
reading the labels of insertions as string literals: this gives a text of the language, with the value that
`unwrap(recover=True)` returns. -/
theorem C91_reported (ht : ∀ w s, Denotes w s → tok w = s) (hp : Everywhere env (defaultLabels printable env) p)
    (fmt : Loc → String) {k : Int} {r : Result Char α} {v : α} {pe : ParseError}
    (h : Returns env (P.seql p .eof) s (recovering k scannerlessGetLoc) r)
    (hv : r.unwrap fmt true = .ok v) (he : r.unwrap fmt false = .error pe) :
    Lang env p (edited tok s 0 pe.edits s.length) v :=
  C46_reported_text tok (labelledEverywhere ht hp) fmt h hv he

/-- C91, with the default locations. -/
theorem C91_reported_default (ht : ∀ w s, Denotes w s → tok w = s)
    (hp : Everywhere env (defaultLabels printable env) p)
    (fmt : Loc → String) {k : Int} {r : Result Char α} {v : α} {pe : ParseError}
    (h : Returns env (P.seql p .eof) s (recovering k defaultGetLoc) r)
    (hv : r.unwrap fmt true = .ok v) (he : r.unwrap fmt false = .error pe) :
    Lang env p (edited tok s 0 pe.edits s.length) v :=
  C46_reported tok (labelledEverywhere ht hp) fmt h hv he

/-- C91: `p.recover_with(x)` without a label is covered if `p` gives the text `x` for `x` itself. -/
theorem C91_recover_with {p : P Char ρ Γ (List Char)} {x : List Char} (h : Lang env p x x) :
    defaultLabels printable env (.recoverWith p x (repr printable x)) :=
  ⟨x, C91_literal printable x, h⟩

/-! ### Samples -/

/-- The calculator of the README has default labels. -/
theorem Calculator.defaultLabels (printable : Char → Bool) (C : Calculator.Chars) :
    Everywhere (Calculator.env C) (PyRepr.defaultLabels printable (Calculator.env C)) Calculator.expr := by
  have h1 : "'('" = repr printable ['('] := rfl
  have h2 : "')'" = repr printable [')'] := rfl
  refine ⟨trivial, ?_⟩
  rintro i q ⟨⟩
  simp [Calculator.term, Calculator.factor, Calculator.number, Calculator.mulOp, Calculator.addOp, Calculator.lParen,
    Calculator.rParen, Calculator.spaces, Calculator.expr, P.chainl1, P.between, P.seql, P.seqr, P.seq, P.All,
    PyRepr.defaultLabels, ← h1, ← h2]

namespace Samples

example : ∀ c ∈ ['a', 'b', ' '], c ≠ '\'' ∧ c ≠ '\\' ∧
    ((32 ≤ c.toNat ∧ c.toNat < 127) ∨ (127 < c.toNat ∧ (fun _ => true) c = true)) := by decide

example : repr (fun _ => true) ['i', 't', '\'', 's'] = "\"it's\"" := rfl
example : repr (fun _ => true) ['\'', '"'] = "'\\'\"'" := rfl
example : repr (fun _ => true) ['\n', '\\', 'é'] = "'\\n\\\\é'" := rfl
example : repr (fun _ => false) ['\x01', 'é', '€', '😀'] = "'\\x01\\xe9\\u20ac\\U0001f600'" := rfl

/-- `sym("'") + literal("\n\\")` -/
def quoted : P Char Empty (fun _ => Unit) (Char × List Char) :=
  .seq (PyRepr.sym (fun _ => true) '\'') (PyRepr.literal (fun _ => true) ['\n', '\\'] (by simp))

theorem quoted_default : Everywhere noEnv (defaultLabels (fun _ => true) noEnv) quoted :=
  ⟨⟨trivial, rfl, rfl⟩, fun i => i.elim⟩

/-- On the empty text two things are inserted, and the labels say what. -/
example : ∃ r, Returns noEnv (P.seql quoted .eof) [] (recovering 5 scannerlessGetLoc) r ∧
    r.unwrap defaultFmtLoc true = .ok ('\'', ['\n', '\\']) ∧
    ∃ pe, r.unwrap defaultFmtLoc false = .error pe ∧
      pe.errors.map (·.op) = [some (.insert "\"'\""), some (.insert "'\\n\\\\'")] :=
  ⟨_, ⟨9, rfl⟩, rfl, _, rfl, rfl⟩

example {r : Result Char (Char × List Char)} {pe : ParseError} {tok : String → List Char}
    (h : Returns noEnv (P.seql quoted .eof) [] (recovering 5 scannerlessGetLoc) r)
    (hv : r.unwrap defaultFmtLoc true = .ok ('\'', ['\n', '\\'])) (he : r.unwrap defaultFmtLoc false = .error pe)
    (ht : ∀ w s, Denotes w s → tok w = s) :
    Lang noEnv quoted (edited tok [] 0 pe.edits 0) ('\'', ['\n', '\\']) :=
  C91_reported (s := []) ht quoted_default defaultFmtLoc h hv he

end Samples

end Reparsec
