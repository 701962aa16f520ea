import Verif.Model.JsonLexer
import Verif.Lemmas.JsonText
import Verif.Spec.Json
import Verif.Spec.Lexing

/-!
# JSON texts as tokens
-/

namespace Reparsec.JsonText

open Json (V Fns)
open Yamlish (NotNext slice_add takeWhile_take takeWhile_of drop_append)

variable {F : Type} {J : Fns F} {src : List Char} {i j : Nat} {α : Type}

/-! ### From tokens to texts -/

/-- The text of a token. -/
inductive Lexeme : String → String → List Char → Prop
  | punct {c} : isPunct c = true → Lexeme "punct" (String.ofList [c]) [c]
  | true : Lexeme "bool" (String.ofList ['t', 'r', 'u', 'e']) ['t', 'r', 'u', 'e']
  | false : Lexeme "bool" (String.ofList ['f', 'a', 'l', 's', 'e']) ['f', 'a', 'l', 's', 'e']
  | null : Lexeme "null" (String.ofList ['n', 'u', 'l', 'l']) ['n', 'u', 'l', 'l']
  | float {t} : Number t → Lexeme "float" (String.ofList t) t
  | integer {t} : Integer t → Lexeme "integer" (String.ofList t) t
  | string {t} : Body t → t ≠ [] → Lexeme "string" (String.ofList t) ('"' :: (t ++ ['"']))
  | other {t} : Lexeme "_" (String.ofList t) t

theorem oneLen_sound {f : Char → Bool} {l : List Char} {n : Nat} (h : oneLen f l = some n) :
    ∃ c, l.take n = [c] ∧ f c = true := by
  cases l with
  | nil => cases h
  | cons c l =>
    simp only [oneLen] at h
    split at h
    · next hc => cases h; exact ⟨c, rfl, hc⟩
    · cases h

theorem named_sound {kind : String} {f : List Char → Option Nat} {cut : Nat} {l : List Char}
    {r : Nat × Option (String × String)} (h : named kind f cut l = some r) :
    ∃ n, f l = some n ∧ r.1 = (l.take n).length ∧ l = l.take n ++ l.drop r.1 ∧
      r.2 = some (kind, String.ofList (((l.take n).take ((l.take n).length - cut)).drop cut)) := by
  obtain ⟨n, hn, rfl⟩ := Option.map_eq_some_iff.1 h
  refine ⟨n, hn, rfl, ?_, rfl⟩
  have : l.drop (l.take n).length = l.drop n := by
    rw [List.length_take]
    by_cases hl : n ≤ l.length
    · rw [Nat.min_eq_left hl]
    · rw [Nat.min_eq_right (by omega), List.drop_length, List.drop_eq_nil_of_le (by omega)]
  rw [this, List.take_append_drop]

/-- A match is white space or a token. -/
theorem lexLen_sound {l : List Char} {r : Nat × Option (String × String)} (h : lexLen l = some r) :
    ∃ x, l = x ++ l.drop r.1 ∧ ((r.2 = none ∧ Ws x) ∨ ∃ k v, r.2 = some (k, v) ∧ Lexeme k v x) := by
  unfold lexLen at h
  split at h
  · cases h
    refine ⟨l.takeWhile isSpace, ?_, .inl ⟨rfl, ws_takeWhile l⟩⟩
    have := List.take_append_drop (l.takeWhile isSpace).length l
    rw [takeWhile_take] at this
    exact this.symm
  · simp only [Option.or_eq_some_iff] at h
    rcases h with h | ⟨-, h | ⟨-, h | ⟨-, h | ⟨-, h | ⟨-, h | ⟨-, h⟩⟩⟩⟩⟩⟩
    all_goals
      obtain ⟨n, hn, -, hd, hr⟩ := named_sound h
      refine ⟨_, hd, .inr ⟨_, _, hr, ?_⟩⟩
      try simp only [Nat.sub_zero, List.take_length, List.drop_zero]
    · obtain ⟨c, hc, hp⟩ := oneLen_sound hn
      rw [hc]; exact .punct hp
    · rcases boolLen_sound hn with hb | hb <;> rw [hb]
      · exact .true
      · exact .false
    · rw [wordLen_sound hn]; exact .null
    · exact .float (numLen_sound hn)
    · exact .integer (intLen_sound hn)
    · obtain ⟨t, ht, hB, h0⟩ := strLen_sound hn
      rw [ht]
      have := Lexeme.string hB h0
      simpa using this
    · exact .other

/-- The texts of the tokens, each with white space after it. -/
inductive Spell : List Token → List Char → Prop
  | nil : Spell [] []
  | cons {t ts x b w} : Lexeme t.kind t.value x → Ws b → Spell ts w → Spell (t :: ts) (x ++ (b ++ w))

theorem Ws.append {a b : List Char} (ha : Ws a) (hb : Ws b) : Ws (a ++ b) := by
  intro x hx
  rcases List.mem_append.1 hx with h | h
  · exact ha x h
  · exact hb x h

theorem tiles_sound {toks : List Token} (h : Tiles src jsonSpec i toks) :
    ∃ b w, src.drop i = b ++ w ∧ Ws b ∧ Spell toks w := by
  induction h with
  | done => exact ⟨[], [], by simp, nofun, .nil⟩
  | @space i m toks hi hm hg h ih =>
    obtain ⟨b, w, hd, hb, hw⟩ := ih
    obtain ⟨r, hr, rfl⟩ := Option.map_eq_some_iff.1 hm
    obtain ⟨x, hx, ⟨-, hws⟩ | ⟨k, v, hk, -⟩⟩ := lexLen_sound hr
    · refine ⟨x ++ b, w, ?_, hws.append hb, hw⟩
      rw [hx, List.drop_drop, hd, List.append_assoc]
    · rw [hk] at hg; cases hg
  | @token i m kind value toks hi hm hg h ih =>
    obtain ⟨b, w, hd, hb, hw⟩ := ih
    obtain ⟨r, hr, rfl⟩ := Option.map_eq_some_iff.1 hm
    obtain ⟨x, hx, ⟨hk, -⟩ | ⟨k, v, hk, hl⟩⟩ := lexLen_sound hr
    · rw [hk] at hg; cases hg
    · rw [hk] at hg; cases hg
      refine ⟨[], x ++ (b ++ w), ?_, nofun, .cons hl hb hw⟩
      rw [hx, List.drop_drop, hd, List.nil_append]

theorem Spell.uncons {t : Token} {ts : List Token} {w : List Char} (h : Spell (t :: ts) w) :
    ∃ x b w', w = (x ++ b) ++ w' ∧ Lexeme t.kind t.value x ∧ Ws b ∧ Spell ts w' := by
  cases h with
  | cons h1 h2 h3 => exact ⟨_, _, _, (List.append_assoc ..).symm, h1, h2, h3⟩

theorem Spell.unappend {a b : List Token} {w : List Char} (h : Spell (a ++ b) w) :
    ∃ w1 w2, w = w1 ++ w2 ∧ Spell a w1 ∧ Spell b w2 := by
  induction a generalizing w with
  | nil => exact ⟨[], w, rfl, .nil, h⟩
  | cons t a ih =>
    cases h with
    | cons h1 h2 h3 =>
      obtain ⟨w1, w2, rfl, h4, h5⟩ := ih h3
      exact ⟨_, w2, by simp only [List.append_assoc], .cons h1 h2 h4, h5⟩

theorem Spell.one {t : Token} {w : List Char} (h : Spell [t] w) :
    ∃ x b, w = x ++ b ∧ Lexeme t.kind t.value x ∧ Ws b := by
  obtain ⟨x, b, w', rfl, h1, h2, h3⟩ := h.uncons
  cases h3
  exact ⟨x, b, by simp, h1, h2⟩

section
variable {k v : String} {x : List Char}

theorem Lexeme.toInteger (h : Lexeme k v x) (hk : k = "integer") : Integer x ∧ v = String.ofList x := by
  cases h <;> simp_all

theorem Lexeme.toFloat (h : Lexeme k v x) (hk : k = "float") : Number x ∧ v = String.ofList x := by
  cases h <;> simp_all

theorem Lexeme.toBool (h : Lexeme k v x) (hk : k = "bool") :
    (x = ['t', 'r', 'u', 'e'] ∨ x = ['f', 'a', 'l', 's', 'e']) ∧ v = String.ofList x := by
  cases h <;> simp_all

theorem Lexeme.toNull (h : Lexeme k v x) (hk : k = "null") : x = ['n', 'u', 'l', 'l'] := by
  cases h <;> simp_all

theorem Lexeme.toString (h : Lexeme k v x) (hk : k = "string") :
    ∃ t, x = '"' :: (t ++ ['"']) ∧ Body t ∧ t ≠ [] ∧ v = String.ofList t := by
  cases h <;> simp_all

theorem Lexeme.toPunct (h : Lexeme k v x) (hk : k = "punct") : ∃ c, x = [c] ∧ v = String.ofList [c] := by
  cases h <;> simp_all

end

theorem mark_of {t : Token} {c : Char} {x b : List Char} (hp : Json.Punct (String.ofList [c]) t)
    (h : Lexeme t.kind t.value x) (hb : Ws b) : Mark c (x ++ b) := by
  obtain ⟨d, rfl, hd⟩ := h.toPunct hp.1
  rw [hp.2] at hd
  have := congrArg String.toList hd
  simp only [String.toList_ofList, List.cons.injEq, and_true] at this
  subst this
  exact ⟨b, rfl, hb⟩

theorem str_of {t : Token} {n : String} {x b : List Char} (hk : Json.Key J t n) (h : Lexeme t.kind t.value x)
    (hb : Ws b) : Str J (x ++ b) n := by
  obtain ⟨t', rfl, hB, h0, hv⟩ := h.toString hk.1
  refine ⟨t', b, by simp, hB, h0, hb, ?_⟩
  rw [← hv]
  exact hk.2

theorem commas_text {P : List Char → α → Prop} {items : List (List Token × α)} {w : List Token} {u : List Char}
    (hit : ∀ x ∈ items, ∀ u, Spell x.1 u → P u x.2) (hc : Json.Commas (items.map (·.1)) w) (hs : Spell w u) :
    ∃ items' : List (List Char × α), (∀ x ∈ items', P x.1 x.2) ∧ Commas (items'.map (·.1)) u ∧
      items'.map (·.2) = items.map (·.2) := by
  induction items generalizing w u with
  | nil =>
    cases hc
    cases hs
    exact ⟨[], nofun, .none, rfl⟩
  | cons x xs ih =>
    have hx := hit x List.mem_cons_self
    cases xs with
    | nil =>
      cases hc
      exact ⟨[(u, x.2)], by simpa using hx u hs, .one, rfl⟩
    | cons y ys =>
      cases hc with
      | @more _ c _ _ r hm hc =>
        obtain ⟨u1, u2, rfl, h1, h2⟩ := hs.unappend
        obtain ⟨xc, b, u3, rfl, h3, h4, h5⟩ := h2.uncons
        obtain ⟨items', hp, hc', he⟩ := ih (fun z hz => hit z (List.mem_cons_of_mem _ hz)) hc h5
        cases items' with
        | nil => cases he
        | cons z zs =>
          refine ⟨(u1, x.2) :: z :: zs, ?_, .more (mark_of (c := ',') hm h3 h4) hc', ?_⟩
          · intro q hq
            rcases List.mem_cons.1 hq with rfl | hq
            · exact hx _ h1
            · exact hp q hq
          · simp only [List.map_cons] at he ⊢
            rw [he]

theorem choose_list {β γ : Type} {Q : γ → Prop} {f : γ → β} {l : List β} (h : ∀ x ∈ l, ∃ y, f y = x ∧ Q y) :
    ∃ l' : List γ, l'.map f = l ∧ ∀ y ∈ l', Q y := by
  induction l with
  | nil => exact ⟨[], rfl, nofun⟩
  | cons x l ih =>
    obtain ⟨y, rfl, hy⟩ := h x List.mem_cons_self
    obtain ⟨l', rfl, hl'⟩ := ih fun z hz => h z (List.mem_cons_of_mem _ hz)
    refine ⟨y :: l', rfl, fun z hz => ?_⟩
    rcases List.mem_cons.1 hz with rfl | hz
    · exact hy
    · exact hl' z hz

theorem denotes_text {toks : List Token} {v : V F} (h : Json.Denotes J toks v) {w : List Char} (hs : Spell toks w) :
    Denotes J w v := by
  induction h generalizing w with
  | @int t i hk hv =>
    obtain ⟨x, b, rfl, hx, hb⟩ := hs.one
    obtain ⟨h1, h2⟩ := hx.toInteger hk
    exact .int h1 (by rw [← h2]; exact hv) hb
  | @float t i hk hv =>
    obtain ⟨x, b, rfl, hx, hb⟩ := hs.one
    obtain ⟨h1, h2⟩ := hx.toFloat hk
    exact .float h1 (by rw [← h2]; exact hv) hb
  | @bool t hk =>
    obtain ⟨x, b, rfl, hx, hb⟩ := hs.one
    obtain ⟨rfl | rfl, h2⟩ := hx.toBool hk <;> rw [h2]
    · exact .true hb
    · exact .false hb
  | @null t hk =>
    obtain ⟨x, b, rfl, hx, hb⟩ := hs.one
    rw [hx.toNull hk]
    exact .null hb
  | @str t s hk hv =>
    obtain ⟨x, b, rfl, hx, hb⟩ := hs.one
    exact .str (str_of ⟨hk, hv⟩ hx hb)
  | @list l r w' items hl hit hc hr ih =>
    obtain ⟨x, b, u, rfl, hx, hb, hs1⟩ := hs.uncons
    obtain ⟨u, u', rfl, hs2, hs3⟩ := hs1.unappend
    obtain ⟨x', b', rfl, hx', hb'⟩ := hs3.one
    obtain ⟨items', h1, h2, h3⟩ := commas_text (P := Denotes J) (fun x hx u hu => ih x hx hu) hc hs2
    rw [← h3]
    exact .list (mark_of (c := '[') hl hx hb) h1 h2 (mark_of (c := ']') hr hx' hb')
  | @dict l r w' items hl hk hit hc hr ih =>
    obtain ⟨x, b, u, rfl, hx, hb, hs1⟩ := hs.uncons
    obtain ⟨u, u', rfl, hs2, hs3⟩ := hs1.unappend
    obtain ⟨x', b', rfl, hx', hb'⟩ := hs3.one
    obtain ⟨items', h1, h2, h3⟩ := commas_text (α := String × V F)
      (items := items.map fun x => (x.tokens, (x.name, x.value)))
      (P := fun u y => ∃ z : Item F, (z.text, (z.name, z.value)) = (u, y) ∧
        (Str J z.key z.name ∧ Mark ':' z.colon) ∧ Denotes J z.rest z.value) (by
        intro y hy u hu
        obtain ⟨z, hz, rfl⟩ := List.mem_map.1 hy
        obtain ⟨xk, bk, u, rfl, hxk, hbk, hu1⟩ := hu.uncons
        obtain ⟨xc, bc, u, rfl, hxc, hbc, hu2⟩ := hu1.uncons
        exact ⟨⟨xk ++ bk, xc ++ bc, u, z.name, z.value⟩, rfl,
          ⟨str_of (hk z hz).1 hxk hbk, mark_of (c := ':') (hk z hz).2 hxc hbc⟩, ih z hz hu2⟩)
      (by rw [List.map_map]; exact hc) hs2
    obtain ⟨zs, rfl, hzs⟩ := choose_list (f := fun z : Item F => (z.text, (z.name, z.value))) h1
    rw [List.map_map, List.map_map] at h3
    rw [List.map_map] at h2
    have h3 : zs.map (fun z => (z.name, z.value)) = items.map (fun z => (z.name, z.value)) := h3
    rw [← h3]
    exact .dict (mark_of (c := '{') hl hx hb) (fun z hz => (hzs z hz).1) (fun z hz => (hzs z hz).2) h2
      (mark_of (c := '}') hr hx' hb')

/-! ### From texts to tokens -/

/-- From `i` to `j` the lexer reads these tokens. -/
def Scans (src : List Char) (i : Nat) (toks : List Token) (j : Nat) : Prop :=
  ∀ rest, Tiles src jsonSpec j rest → Tiles src jsonSpec i (toks ++ rest)

theorem Scans.append {a b : List Token} {l : Nat} (h1 : Scans src i a l) (h2 : Scans src l b j) :
    Scans src i (a ++ b) j := by
  intro rest h
  rw [List.append_assoc]
  exact h1 _ (h2 _ h)

theorem Scans.nil : Scans src i [] i := fun _ h => h

theorem scans_ws {b post : List Char} (hs : src.drop i = b ++ post) (hb : Ws b) (hp : NotNext isSpace post) :
    Scans src i [] (i + b.length) := by
  cases b with
  | nil => exact Scans.nil
  | cons c b =>
    intro rest h
    have ho : owsLen (c :: b ++ post) = (c :: b).length := by
      rw [owsLen, takeWhile_of (fun x hx => isSpace_iff.2 (hb x hx)) hp]
    refine .space (m := ⟨i + (c :: b).length, none⟩) ?_ ?_ rfl h
    · rcases Nat.lt_or_ge i src.length with h' | h'
      · exact h'
      · rw [List.drop_eq_nil_of_le h'] at hs; cases hs
    · have : lexLen (c :: b ++ post) = some ((c :: b).length, none) := by
        rw [lexLen, ho, if_pos (by simp)]
      simp only [jsonSpec, hs, this, Option.map_some]

theorem scans_token {k v : String} {x b post : List Char} (hs : src.drop i = x ++ (b ++ post)) (hx : x ≠ [])
    (hl : lexLen (x ++ (b ++ post)) = some (x.length, some (k, v))) (hb : Ws b) (hp : NotNext isSpace post) :
    ∃ t : Token, t.kind = k ∧ t.value = v ∧ Scans src i [t] (i + (x ++ b).length) := by
  refine ⟨⟨k, v, exactLoc src i, exactLoc src (i + x.length)⟩, rfl, rfl, fun rest h => ?_⟩
  refine .token (m := ⟨i + x.length, some (k, v)⟩) ?_ ?_ rfl ?_
  · rcases Nat.lt_or_ge i src.length with h' | h'
    · exact h'
    · rw [List.drop_eq_nil_of_le h'] at hs
      exact absurd (List.append_eq_nil_iff.1 hs.symm).1 hx
  · simp only [jsonSpec, hs, hl, Option.map_some]
  · rw [List.length_append, ← Nat.add_assoc] at h
    exact scans_ws (drop_append hs) hb hp _ h

theorem owsLen_none {c : Char} {l : List Char} (h : isSpace c = false) : owsLen (c :: l) = 0 := by
  simp [owsLen, h]

theorem named_none {k : String} {f : List Char → Option Nat} {cut : Nat} {l : List Char} (h : f l = none) :
    named k f cut l = none := by
  rw [named, h]; rfl

theorem named_some {k : String} {f : List Char → Option Nat} {cut : Nat} {x l : List Char}
    (h : f (x ++ l) = some x.length) :
    named k f cut (x ++ l) = some (x.length, some (k, String.ofList ((x.take (x.length - cut)).drop cut))) := by
  simp only [named, h, Option.map_some, List.take_left]

theorem oneLen_none {f : Char → Bool} {c : Char} {l : List Char} (h : f c = false) : oneLen f (c :: l) = none := by
  simp [oneLen, h]

theorem scans_mark {c : Char} {w post : List Char} (hw : Mark c w) (hc : isPunct c = true)
    (hs : src.drop i = w ++ post) (hp : NotNext isSpace post) :
    ∃ t : Token, Json.Punct (String.ofList [c]) t ∧ Scans src i [t] (i + w.length) := by
  obtain ⟨b, rfl, hb⟩ := hw
  have hsp : isSpace c = false := by
    cases h : isSpace c with
    | false => rfl
    | true => rcases isSpace_iff.1 h with rfl | rfl | rfl | rfl <;> revert hc <;> decide
  have hl : lexLen ([c] ++ (b ++ post)) = some ([c].length, some ("punct", String.ofList [c])) := by
    have h1 : named "punct" (oneLen isPunct) 0 ([c] ++ (b ++ post)) = some ([c].length, some ("punct", String.ofList [c])) :=
      named_some (x := [c]) (by simp [oneLen, hc])
    rw [lexLen, if_neg (fun h => h (owsLen_none hsp)), h1, Option.some_or]
  obtain ⟨t, h1, h2, h3⟩ := scans_token (x := [c]) hs (by simp) hl hb hp
  exact ⟨t, ⟨h1, h2⟩, h3⟩

/-- What can be followed by a mark or nothing is read. -/
def Lexed (src : List Char) (Q : List Token → Prop) (w : List Char) : Prop :=
  (∃ c l, w = c :: l ∧ isSpace c = false) ∧
    ∀ i post, src.drop i = w ++ post → Stop post → ∃ toks, Q toks ∧ Scans src i toks (i + w.length)

theorem punct_none {c : Char} {l : List Char} (h : isPunct c = false) :
    named "punct" (oneLen isPunct) 0 (c :: l) = none := named_none (oneLen_none h)

theorem lexed_token {k v : String} {x b : List Char} {c : Char} {l : List Char} (hx : x = c :: l)
    (hsp : isSpace c = false) (hb : Ws b)
    (hl : ∀ post, NotNext isNumChar post → lexLen (x ++ post) = some (x.length, some (k, v))) {Q : List Token → Prop}
    (hQ : ∀ t : Token, t.kind = k → t.value = v → Q [t]) : Lexed src Q (x ++ b) := by
  refine ⟨⟨c, l ++ b, by rw [hx]; rfl, hsp⟩, fun i post hs hp => ?_⟩
  rw [List.append_assoc] at hs
  obtain ⟨t, h1, h2, h3⟩ := scans_token hs (by rw [hx]; simp) (hl _ (hp.notNum hb)) hb hp.notSpace
  exact ⟨[t], hQ t h1 h2, h3⟩

theorem num_head {c : Char} (h : c = '-' ∨ isDigit c = true) :
    isPunct c = false ∧ c ≠ 't' ∧ c ≠ 'f' ∧ c ≠ 'n' := by
  refine ⟨?_, ?_, ?_, ?_⟩
  · cases hp : isPunct c with
    | false => rfl
    | true =>
      simp only [isPunct, List.contains_iff_mem, List.mem_cons, List.not_mem_nil, or_false] at hp
      rcases hp with rfl | rfl | rfl | rfl | rfl | rfl <;> revert h <;> decide
  all_goals rintro rfl; revert h; decide

theorem lex_integer {t post : List Char} (h : Integer t) (hp : NotNext isNumChar post) :
    lexLen (t ++ post) = some (t.length, some ("integer", String.ofList t)) := by
  have h1 : named "float" numLen 0 (t ++ post) = none := named_none (numLen_integer h hp)
  have h2 := named_some (k := "integer") (cut := 0) (intLen_complete h (notDigit hp))
  obtain ⟨c, l, rfl, hc⟩ := h.head
  obtain ⟨h3, h4, h5, h6⟩ := num_head hc
  rw [List.cons_append] at h1 h2 ⊢
  rw [lexLen, if_neg (fun h => h (owsLen_none (notSpace_num hc))), punct_none h3, named_none (boolLen_none h4 h5),
    named_none (nullLen_none h6), h1, h2]
  simp

theorem lex_number {t post : List Char} (h : Number t) (hp : NotNext isNumChar post) :
    lexLen (t ++ post) = some (t.length, some ("float", String.ofList t)) := by
  have h2 := named_some (k := "float") (cut := 0) (numLen_complete h hp)
  obtain ⟨n, t', hn, rfl, -⟩ := h
  obtain ⟨c, l, rfl, hc⟩ := hn.head
  obtain ⟨h3, h4, h5, h6⟩ := num_head hc
  simp only [List.cons_append] at h2 ⊢
  rw [lexLen, if_neg (fun h => h (owsLen_none (notSpace_num hc))), punct_none h3, named_none (boolLen_none h4 h5),
    named_none (nullLen_none h6), h2]
  simp only [Option.none_or, Option.some_or, Nat.sub_zero, List.take_length, List.drop_zero]

theorem lex_string {t post : List Char} (hB : Body t) (h0 : t ≠ []) :
    lexLen ('"' :: (t ++ ['"']) ++ post) = some (('"' :: (t ++ ['"'])).length, some ("string", String.ofList t)) := by
  have h2 := named_some (k := "string") (cut := 1) (f := strLen) (x := '"' :: (t ++ ['"'])) (l := post)
    (by have := strLen_complete (l := post) hB h0; simpa using this)
  rw [List.cons_append] at h2 ⊢
  rw [lexLen, if_neg (fun h => h (owsLen_none (by decide))), punct_none (by decide),
    named_none (boolLen_none (by decide) (by decide)), named_none (nullLen_none (by decide)),
    named_none (numLen_none (by decide) (by decide)), named_none (intLen_none (by decide) (by decide)), h2]
  simp

theorem lexed_str {w : List Char} {n : String} (h : Str J w n) :
    Lexed src (fun toks => ∃ t, toks = [t] ∧ Json.Key J t n) w := by
  obtain ⟨t, b, rfl, hB, h0, hb, hn⟩ := h
  have he : ('"' :: (t ++ '"' :: b)) = ('"' :: (t ++ ['"'])) ++ b := by simp
  rw [he]
  exact lexed_token rfl (by decide) hb (fun post _ => lex_string hB h0) fun t h1 h2 =>
    ⟨t, rfl, h1, by rw [h2]; exact hn⟩

theorem commas_head {w : List Char} {x : List Char} {xs : List (List Char)} (h : Commas (x :: xs) w) :
    ∃ w', w = x ++ w' := by
  cases h with
  | one => exact ⟨[], by simp⟩
  | more h1 h2 => exact ⟨_, rfl⟩

theorem commas_scan {P : List Token → α → Prop} {items : List (List Char × α)} {w post : List Char}
    (hit : ∀ x ∈ items, Lexed src (P · x.2) x.1) (hc : Commas (items.map (·.1)) w)
    (hs : src.drop i = w ++ post) (hp : Stop post) :
    ∃ (items' : List (List Token × α)) (toks : List Token), (∀ x ∈ items', P x.1 x.2) ∧
      items'.map (·.2) = items.map (·.2) ∧ Json.Commas (items'.map (·.1)) toks ∧ Scans src i toks (i + w.length) := by
  induction items generalizing w i with
  | nil =>
    cases hc
    exact ⟨[], [], nofun, rfl, .none, Scans.nil⟩
  | cons x xs ih =>
    have hx := hit x List.mem_cons_self
    cases xs with
    | nil =>
      cases hc
      obtain ⟨toks, h1, h2⟩ := hx.2 _ _ hs hp
      exact ⟨[(toks, x.2)], toks, by simpa using h1, rfl, .one, h2⟩
    | cons y ys =>
      cases hc with
      | @more _ c _ _ r hm hc =>
        simp only [List.append_assoc] at hs
        have hs1 := drop_append hs
        have hs2 := drop_append hs1
        obtain ⟨toks, h1, h2⟩ := hx.2 _ _ hs (hm.stop (.inl rfl))
        obtain ⟨r', hr'⟩ := commas_head hc
        have hr : NotNext isSpace (r ++ post) := by
          rw [hr', List.append_assoc]
          exact notSpace_append (hit y (by simp)).1
        obtain ⟨t, h3, h4⟩ := scans_mark hm (by decide) hs1 hr
        obtain ⟨items', toks', h5, h6, h7, h8⟩ := ih (fun z hz => hit z (List.mem_cons_of_mem _ hz)) hc hs2
        cases items' with
        | nil => cases h6
        | cons z zs =>
          refine ⟨(toks, x.2) :: z :: zs, toks ++ t :: toks', ?_, ?_, .more h3 h7, ?_⟩
          · intro q hq
            rcases List.mem_cons.1 hq with rfl | hq
            · exact h1
            · exact h5 q hq
          · simp only [List.map_cons] at h6 ⊢
            rw [h6]
          · rw [List.length_append, List.length_append, ← Nat.add_assoc, ← Nat.add_assoc]
            exact h2.append (h4.append h8)

theorem brackets_scan {x y : Char} {l w r post : List Char} {Q : List Token → Prop} (hl : Mark x l) (hr : Mark y r)
    (hx : isPunct x = true) (hy : isPunct y = true)
    (hs : src.drop i = l ++ (w ++ r) ++ post) (hp : NotNext isSpace post) (hw : NotNext isSpace (w ++ (r ++ post)))
    (h : src.drop (i + l.length) = w ++ (r ++ post) → ∃ toks, Q toks ∧ Scans src (i + l.length) toks (i + l.length + w.length)) :
    ∃ t toks t', Json.Punct (String.ofList [x]) t ∧ Q toks ∧ Json.Punct (String.ofList [y]) t' ∧
      Scans src i (t :: (toks ++ [t'])) (i + (l ++ (w ++ r)).length) := by
  simp only [List.append_assoc] at hs
  have h1 := drop_append hs
  obtain ⟨t, p1, s1⟩ := scans_mark hl hx hs hw
  obtain ⟨toks, p2, s2⟩ := h h1
  obtain ⟨t', p3, s3⟩ := scans_mark hr hy (drop_append h1) hp
  refine ⟨t, toks, t', p1, p2, p3, ?_⟩
  rw [List.length_append, List.length_append, ← Nat.add_assoc, ← Nat.add_assoc]
  exact s1.append (s2.append s3)

theorem denotes_head {w : List Char} {v : V F} (h : Denotes J w v) : ∃ c l, w = c :: l ∧ isSpace c = false :=
  (value_complete (s := []) (col := fun _ _ => True) (m := 0) h).1

theorem commas_notSpace {ws : List (List Char)} {w post : List Char} (h : Commas ws w)
    (hw : ∀ x ∈ ws, ∃ c l, x = c :: l ∧ isSpace c = false) (hp : NotNext isSpace post) : NotNext isSpace (w ++ post) := by
  cases ws with
  | nil => cases h; exact hp
  | cons x xs =>
    obtain ⟨w', rfl⟩ := commas_head h
    rw [List.append_assoc]
    exact notSpace_append (hw x List.mem_cons_self)

theorem lexed_denotes {w : List Char} {v : V F} (h : Denotes J w v) : Lexed src (Json.Denotes J · v) w := by
  induction h with
  | @int t b x ht hx hb =>
    obtain ⟨c, l, hcl, hc⟩ := ht.head
    exact lexed_token hcl (notSpace_num hc) hb (fun post hp => lex_integer ht hp) fun t h1 h2 =>
      .int h1 (by rw [h2]; exact hx)
  | @float t b x ht hx hb =>
    obtain ⟨n, t', hn, he, -⟩ := id ht
    obtain ⟨c, l, hcl, hc⟩ := hn.head
    exact lexed_token (c := c) (l := l ++ t') (by rw [he, hcl]; rfl) (notSpace_num hc) hb
      (fun post hp => lex_number ht hp) fun t h1 h2 => .float h1 (by rw [h2]; exact hx)
  | @true b hb =>
    refine lexed_token (x := ['t', 'r', 'u', 'e']) rfl (by decide) hb (v := "true") (k := "bool") (fun post hp => rfl)
      fun t h1 h2 => ?_
    have := Json.Denotes.bool (J := J) h1
    rw [h2] at this
    exact this
  | @false b hb =>
    refine lexed_token (x := ['f', 'a', 'l', 's', 'e']) rfl (by decide) hb (v := "false") (k := "bool") (fun post hp => rfl)
      fun t h1 h2 => ?_
    have := Json.Denotes.bool (J := J) h1
    rw [h2] at this
    exact this
  | @null b hb =>
    exact lexed_token (x := ['n', 'u', 'l', 'l']) rfl (by decide) hb (v := "null") (k := "null") (fun post hp => rfl)
      fun t h1 h2 => .null h1
  | @str w x hx =>
    have := lexed_str (src := src) hx
    refine ⟨this.1, fun i post hs hp => ?_⟩
    obtain ⟨toks, ⟨t, rfl, h1, h2⟩, h3⟩ := this.2 i post hs hp
    exact ⟨_, .str h1 h2, h3⟩
  | @list l r w items hl hit hc hr ih =>
    refine ⟨denotes_head (.list hl hit hc hr), fun i post hs hp => ?_⟩
    have hst : Stop (r ++ post) := hr.stop (.inr (.inl rfl))
    have hsp : NotNext isSpace (w ++ (r ++ post)) := by
      refine commas_notSpace hc (fun x hx => ?_) hst.notSpace
      obtain ⟨y, hy, rfl⟩ := List.mem_map.1 hx
      exact (ih y hy).1
    obtain ⟨t, toks, t', p1, ⟨items', q1, q2, q3⟩, p3, hsc⟩ := brackets_scan
      (Q := fun toks => ∃ items' : List (List Token × V F), (∀ x ∈ items', Json.Denotes J x.1 x.2) ∧
        items'.map (·.2) = items.map (·.2) ∧ Json.Commas (items'.map (·.1)) toks)
      hl hr (by decide) (by decide) hs hp.notSpace hsp fun h => by
        obtain ⟨items', toks, h1, h2, h3, h4⟩ := commas_scan ih hc h hst
        exact ⟨toks, ⟨items', h1, h2, h3⟩, h4⟩
    refine ⟨_, ?_, hsc⟩
    rw [← q2]
    exact .list p1 q1 q3 p3
  | @dict l r w items hl hk hit hc hr ih =>
    refine ⟨denotes_head (.dict hl hk hit hc hr), fun i post hs hp => ?_⟩
    have hst : Stop (r ++ post) := hr.stop (.inr (.inr (.inl rfl)))
    have hm : ∀ x ∈ items.map (fun x => (x.text, (x.name, x.value))),
        Lexed src (fun toks => ∃ z : Json.Item F, (z.tokens, (z.name, z.value)) = (toks, x.2) ∧
          (Json.Key J z.key z.name ∧ Json.Punct ":" z.colon) ∧ Json.Denotes J z.rest z.value) x.1 := by
      intro x hx
      obtain ⟨y, hy, rfl⟩ := List.mem_map.1 hx
      have hkey := lexed_str (src := src) (hk y hy).1
      have hval := ih y hy
      refine ⟨?_, fun i post hs hp => ?_⟩
      · obtain ⟨c, l, hcl, hsp⟩ := hkey.1
        exact ⟨c, l ++ (y.colon ++ y.rest), by simp only [Item.text, hcl]; rfl, hsp⟩
      · simp only [Item.text, List.append_assoc] at hs
        have h1 := drop_append hs
        have h2 := drop_append h1
        obtain ⟨_, ⟨t, rfl, ht⟩, s1⟩ := hkey.2 _ _ hs ((hk y hy).2.stop (.inr (.inr (.inr rfl))))
        obtain ⟨t', ht', s2⟩ := scans_mark (hk y hy).2 (by decide) h1 (notSpace_append hval.1)
        obtain ⟨toks, hd, s3⟩ := hval.2 _ _ h2 hp
        refine ⟨t :: t' :: toks, ⟨⟨t, t', toks, y.name, y.value⟩, rfl, ⟨ht, ht'⟩, hd⟩, ?_⟩
        simp only [Item.text, List.length_append]
        rw [← Nat.add_assoc, ← Nat.add_assoc]
        exact s1.append (s2.append s3)
    have hc' : Commas ((items.map (fun x => (x.text, (x.name, x.value)))).map (·.1)) w := by
      rw [List.map_map]; exact hc
    have hsp : NotNext isSpace (w ++ (r ++ post)) := by
      refine commas_notSpace hc (fun x hx => ?_) hst.notSpace
      obtain ⟨y, hy, rfl⟩ := List.mem_map.1 hx
      exact (hm _ (List.mem_map_of_mem hy)).1
    obtain ⟨t, toks, t', p1, ⟨zs, q1, q2, q3⟩, p3, hsc⟩ := brackets_scan
      (Q := fun toks => ∃ zs : List (Json.Item F), (∀ z ∈ zs, (Json.Key J z.key z.name ∧ Json.Punct ":" z.colon) ∧
          Json.Denotes J z.rest z.value) ∧ zs.map (fun z => (z.name, z.value)) = items.map (fun z => (z.name, z.value)) ∧
        Json.Commas (zs.map Json.Item.tokens) toks)
      hl hr (by decide) (by decide) hs hp.notSpace hsp fun h => by
        obtain ⟨items', toks, h1, h2, h3, h4⟩ := commas_scan
          (P := fun toks y => ∃ z : Json.Item F, (z.tokens, (z.name, z.value)) = (toks, y) ∧
            (Json.Key J z.key z.name ∧ Json.Punct ":" z.colon) ∧ Json.Denotes J z.rest z.value) hm hc' h hst
        obtain ⟨zs, rfl, hzs⟩ := choose_list (f := fun z : Json.Item F => (z.tokens, (z.name, z.value))) h1
        rw [List.map_map] at h2 h3
        rw [List.map_map] at h2
        exact ⟨toks, ⟨zs, hzs, h2, h3⟩, h4⟩
    refine ⟨_, ?_, hsc⟩
    rw [← q2]
    exact .dict p1 (fun z hz => (q1 z hz).1) (fun z hz => (q1 z hz).2) q3 p3

theorem tiles_iff {v : V F} : (∃ toks, Tiles src jsonSpec 0 toks ∧ Json.Denotes J toks v) ↔ Text J src v := by
  constructor
  · rintro ⟨toks, h1, h2⟩
    obtain ⟨b, w, h3, h4, h5⟩ := tiles_sound h1
    exact ⟨b, w, h3, h4, denotes_text h2 h5⟩
  · rintro ⟨b, w, rfl, hb, hw⟩
    have hh := lexed_denotes (src := b ++ w) hw
    have h0 : (b ++ w).drop 0 = b ++ w := rfl
    have s1 := scans_ws (i := 0) h0 hb (by simpa using notSpace_append (l := []) hh.1)
    have h1 : (b ++ w).drop (0 + b.length) = w ++ [] := by rw [List.append_nil]; exact drop_append h0
    obtain ⟨toks, h2, s2⟩ := hh.2 _ [] h1 (fun x hx => by cases hx)
    have hl : 0 + b.length + w.length = (b ++ w).length := by simp
    rw [hl] at s2
    have := (s1.append s2) [] .done
    rw [List.nil_append, List.append_nil] at this
    exact ⟨toks, this, h2⟩

end Reparsec.JsonText
