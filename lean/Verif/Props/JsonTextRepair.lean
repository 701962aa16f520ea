import Verif.Props.JsonText
import Verif.Props.Language
import Verif.Lemmas.Chain
import Verif.Props.Regex

/-!
# C80, wrong input: what a repair of the scannerless JSON parser gives

The value of a repaired text is the value of the text after the reported edits.
-/

namespace Reparsec

open JsonText
open Json (V Fns pyDict)
open Yamlish (slice_add takeWhile_take)

namespace JsonText

section
variable {F : Type} {J : Fns F} {w : List Char}

theorem lang_ows {v : String} (h : Lang (env J) ows w v) : Ws w := by
  obtain ⟨s, i, j, -, -, hr, rfl⟩ := h.inv
  simp only [Yamlish.matcher, Option.map_some, Option.some.injEq, Prod.mk.injEq] at hr
  obtain ⟨rfl, -⟩ := hr
  rw [slice_add, owsLen, takeWhile_take]
  exact ws_takeWhile _

theorem lang_token {f : List Char → Option Nat} {cut : Nat} {v : String} (h : Lang (env J) (token f cut) w v) :
    ∃ l n b, f l = some n ∧ w = l.take n ++ b ∧ Ws b ∧
      v = String.ofList (((l.take n).take ((l.take n).length - cut)).drop cut) := by
  obtain ⟨s, i, j, -, -, hr, rfl⟩ := h.inv
  simp only [tokenMatcher, Option.map_eq_some_iff, Prod.mk.injEq, Except.ok.injEq, Option.some.injEq] at hr
  obtain ⟨n, hn, rfl, rfl⟩ := hr
  refine ⟨_, n, _, hn, ?_, ws_takeWhile ((s.drop i).drop n), rfl⟩
  rw [Nat.add_assoc, slice_add, List.take_add, owsLen]
  generalize s.drop i = r
  rw [List.length_take]
  rcases Nat.le_total n r.length with hle | hle
  · rw [Nat.min_eq_left hle, takeWhile_take]
  · rw [Nat.min_eq_right hle, List.drop_eq_nil_of_le hle, List.take_length, List.drop_length,
      List.take_of_length_le hle]
    rfl

theorem lang_mark {x : Char} {v : List Char} (h : Lang (env J) (punct x) w v) : Mark x w := by
  obtain ⟨u, u', b, rfl, h1, h2⟩ := lang_seql.1 h
  have h1 := eq_of_beq h1.inv.1
  exact ⟨u', by rw [← h1]; rfl, lang_ows h2⟩

theorem Mark.length_pos {x : Char} (h : Mark x w) : 0 < w.length := by
  obtain ⟨b, rfl, -⟩ := h
  simp

theorem lang_str {v : String} (h : Lang (env J) (string J) w v) : Str J w v := by
  obtain ⟨x, h, hv⟩ := h.inv
  obtain ⟨l, n, b, hn, rfl, hb, rfl⟩ := lang_token h.inv
  obtain ⟨t, ht, hB, h0⟩ := strLen_sound hn
  rw [ht] at hv ⊢
  refine ⟨t, b, by simp, hB, h0, hb, ?_⟩
  simpa using hv

theorem lang_item {kv : String × V F} (h : Lang (env J) (member J) w kv) :
    ∃ k c r, w = k ++ (c ++ r) ∧ Str J k kv.1 ∧ Mark ':' c ∧ Lang (env J) value r kv.2 := by
  obtain ⟨u, r, k, v, rfl, rfl, h1, hv⟩ := h.inv
  obtain ⟨k, c, b, rfl, hk, hc⟩ := lang_seql.1 h1
  exact ⟨k, c, r, by simp, lang_str hk.inv, lang_mark hc, hv⟩

/-- The items of `p.sep_by(punct(","))`. -/
theorem lang_list {α : Type} {p : E F α} {vs : List α} (h : Lang (env J) (.sepBy p (punct ',')) w vs) :
    ∃ items : List (List Char × α), (∀ x ∈ items, x.1.length ≤ w.length ∧ Lang (env J) p x.1 x.2) ∧
      Commas (items.map (·.1)) w ∧ vs = items.map (·.2) := by
  obtain ⟨o, h0, ho⟩ := h.inv
  cases ho
  rcases h0.inv with ⟨rfl, rfl⟩ | ⟨x, rfl, h'⟩
  · exact ⟨[], by simp, .none, rfl⟩
  · obtain ⟨u, u', a, xs, rfl, rfl, h1, h2⟩ := h'.inv
    have key : ∀ (xs : List α) (w : List Char), Lang (env J) (.many (.seqr (punct ',') p)) w xs →
        ∃ items : List (List Char × α), (∀ x ∈ items, x.1.length ≤ w.length ∧ Lang (env J) p x.1 x.2) ∧
          xs = items.map (·.2) ∧ ∀ u, Commas (u :: items.map (·.1)) (u ++ w) := by
      intro xs
      induction xs with
      | nil =>
        intro w h
        rcases h.inv with ⟨rfl, -⟩ | ⟨_, _, _, _, _, h, -⟩
        · exact ⟨[], by simp, rfl, fun u => by rw [List.append_nil]; exact .one⟩
        · cases h
      | cons y ys ih =>
        intro w h
        rcases h.inv with ⟨-, h⟩ | ⟨u, u', y', ys', rfl, h', h3, h4⟩
        · cases h
        · cases h'
          obtain ⟨c, z, k, rfl, h5, h6⟩ := lang_seqr.1 h3
          obtain ⟨items, hit, rfl, hc⟩ := ih u' h4
          refine ⟨(z, y) :: items, ?_, rfl, fun u => ?_⟩
          · intro x hx
            rcases List.mem_cons.1 hx with rfl | hx
            · exact ⟨by simp only [List.length_append]; omega, h6⟩
            · have := hit x hx
              exact ⟨by simp only [List.length_append]; omega, this.2⟩
          · rw [List.append_assoc]
            exact .more (lang_mark h5) (hc _)
    obtain ⟨items, hit, rfl, hc⟩ := key xs u' h2
    refine ⟨(u, a) :: items, ?_, hc u, rfl⟩
    intro x hx
    rcases List.mem_cons.1 hx with rfl | hx
    · exact ⟨by simp only [List.length_append]; omega, h1⟩
    · have := hit x hx
      exact ⟨by simp only [List.length_append]; omega, this.2⟩

theorem lang_between {α : Type} {x y : Char} {p : E F α} {v : α}
    (h : Lang (env J) (.between (punct x) (punct y) p) w v) :
    ∃ l u r, w = l ++ (u ++ r) ∧ Mark x l ∧ Mark y r ∧ u.length < w.length ∧ Lang (env J) p u v := by
  obtain ⟨l, u, a, rfl, h1, h2⟩ := lang_seqr.1 h
  obtain ⟨u, r, b, rfl, h3, h4⟩ := lang_seql.1 h2
  have := (lang_mark h1).length_pos
  exact ⟨l, u, r, rfl, lang_mark h1, lang_mark h4, by simp only [List.length_append]; omega, h3⟩

theorem lang_collect {items : List (List Char × (String × V F))}
    (hd : ∀ x ∈ items, ∃ y : Item F, x.1 = y.text ∧ x.2 = (y.name, y.value) ∧
      (Str J y.key y.name ∧ Mark ':' y.colon) ∧ Denotes J y.rest y.value) :
    ∃ its : List (Item F), items.map (·.1) = its.map Item.text ∧
      items.map (·.2) = its.map (fun x => (x.name, x.value)) ∧
      (∀ x ∈ its, Str J x.key x.name ∧ Mark ':' x.colon) ∧ (∀ x ∈ its, Denotes J x.rest x.value) := by
  induction items with
  | nil => exact ⟨[], rfl, rfl, by simp, by simp⟩
  | cons x xs ihx =>
    obtain ⟨its, e1, e2, h1, h2⟩ := ihx fun y hy => hd y (List.mem_cons_of_mem _ hy)
    obtain ⟨y, e3, e4, h3, h4⟩ := hd _ List.mem_cons_self
    refine ⟨y :: its, ?_, ?_, ?_, ?_⟩
    · rw [List.map_cons, List.map_cons, e1, e3]
    · rw [List.map_cons, List.map_cons, e2, e4]
    · intro z hz
      rcases List.mem_cons.1 hz with rfl | hz
      · exact h3
      · exact h1 z hz
    · intro z hz
      rcases List.mem_cons.1 hz with rfl | hz
      · exact h4
      · exact h2 z hz

theorem lang_value {v : V F} (h : Lang (env J) value w v) : Denotes J w v := by
  generalize hn : w.length = n
  induction n using Nat.strongRecOn generalizing w v with
  | ind n ih =>
    obtain ⟨q, hq, h⟩ := h.inv
    cases hq
    rcases h.inv.inv with h | h
    · rcases h.inv with h | h
      · rcases h.inv.inv with h | h
        · rcases h.inv with h | h
          · rcases h.inv with h | h
            · rcases h.inv with h | h
              · obtain ⟨x, h, hv⟩ := h.inv
                obtain ⟨l, k, b, hk, rfl, hb, rfl⟩ := lang_token h.inv
                simp only [Nat.sub_zero, List.drop_zero, List.take_length] at hv
                cases hf : J.float (String.ofList (l.take k)) with
                | error e => simp only [hf, Except.map] at hv; cases hv
                | ok y => simp only [hf, Except.map] at hv; cases hv; exact .float (numLen_sound hk) hf hb
              · obtain ⟨x, h, hv⟩ := h.inv
                obtain ⟨l, k, b, hk, rfl, hb, rfl⟩ := lang_token h.inv
                simp only [Nat.sub_zero, List.drop_zero, List.take_length] at hv
                cases hf : J.int (String.ofList (l.take k)) with
                | error e => simp only [hf, Except.map] at hv; cases hv
                | ok y => simp only [hf, Except.map] at hv; cases hv; exact .int (intLen_sound hk) hf hb
            · obtain ⟨x, h, hv⟩ := h.inv
              obtain ⟨l, k, b, hk, rfl, hb, rfl⟩ := lang_token h.inv
              simp only [Nat.sub_zero, List.drop_zero, List.take_length] at hv
              rcases boolLen_sound hk with h | h
              · rw [h] at hv ⊢; cases hv; exact .true hb
              · rw [h] at hv ⊢; cases hv; exact .false hb
          · obtain ⟨x, h, hv⟩ := h.inv
            obtain ⟨l, k, b, hk, rfl, hb, rfl⟩ := lang_token h.inv
            cases hv
            rw [wordLen_sound hk]
            exact .null hb
        · obtain ⟨x, hx, hv⟩ := h.inv
          cases hv
          exact .str (lang_str hx)
      · obtain ⟨l, u, r, rfl, hl, hr, hlt, h⟩ := lang_between h.inv.inv
        obtain ⟨kvs, hx, hv⟩ := h.inv
        cases hv
        obtain ⟨items, hit, hc, rfl⟩ := lang_list hx
        have hd : ∀ x ∈ items, ∃ y : Item F, x.1 = y.text ∧ x.2 = (y.name, y.value) ∧
            (Str J y.key y.name ∧ Mark ':' y.colon) ∧ Denotes J y.rest y.value := by
          intro x hx
          obtain ⟨hle, hm⟩ := hit x hx
          obtain ⟨k, c, r', he, d5, d6, d7⟩ := lang_item hm
          have : r'.length ≤ x.1.length := by rw [he]; simp only [List.length_append]; omega
          exact ⟨⟨k, c, r', x.2.1, x.2.2⟩, he, rfl, ⟨d5, d6⟩, ih r'.length (by omega) d7 rfl⟩
        obtain ⟨its, e1, e2, h5, h6⟩ := lang_collect hd
        rw [e1] at hc
        rw [e2]
        exact .dict hl h5 h6 hc hr
    · obtain ⟨l, u, r, rfl, hl, hr, hlt, h⟩ := lang_between h.inv.inv
      obtain ⟨vs, hx, hv⟩ := h.inv
      cases hv
      obtain ⟨items, hit, hc, rfl⟩ := lang_list hx
      refine .list hl (fun x hx => ?_) hc hr
      obtain ⟨hle, hm⟩ := hit x hx
      exact ih x.1.length (by omega) hm rfl

/-- What the labels of what is inserted stand for: `1`, `"a"`, and the marks without the quotes around them. -/
def inserted (l : String) : List Char :=
  if l = "1" then ['1'] else if l = "'\"a\"'" then ['"', 'a', '"'] else (l.toList.drop 1).take 1

theorem inserted_mark (x : Char) : inserted (String.ofList ['\'', x, '\'']) = [x] := by
  unfold inserted
  rw [if_neg, if_neg]
  · simp
  · intro h
    have := congrArg String.length h
    simp at this
    have := congrArg (·.length) (congrArg String.toList h)
    simp at this
  · intro h
    have := congrArg (·.length) (congrArg String.toList h)
    simp at this

theorem lang_one (h1 : J.int "1" = .ok 1) : Lang (env J) (scalar J) ['1'] (.int 1) := by
  refine .altL (.altL (.altL (.altR (.fmap (a := "1") (.label ?_) (by rw [h1]; rfl)))))
  exact .regexp (s := ['1']) (i := 0) (j := 1) (by simp) (by simp) rfl

theorem lang_a (ha : J.unescape "a" = .ok "a") : Lang (env J) (string J) ['"', 'a', '"'] "a" := by
  refine .fmap (a := "a") (.label ?_) ha
  exact .regexp (s := ['"', 'a', '"']) (i := 0) (j := 3) (by simp) (by simp) rfl

theorem inserts (h1 : J.int "1" = .ok 1) (ha : J.unescape "a" = .ok "a") :
    Everywhere (env J) (P.labelled (env J) inserted) (.seqr ows value) := by
  have hp : ∀ x, P.All (P.labelled (env J) inserted) (punct x : E F _) := fun x => ⟨trivial, inserted_mark x, trivial⟩
  have hs : P.All (P.labelled (env J) inserted) (string J) := ⟨trivial, trivial, trivial⟩
  have hb : ∀ {α : Type} {x y : Char} {p : E F α}, P.All (P.labelled (env J) inserted) p →
      P.All (P.labelled (env J) inserted) (.between (punct x) (punct y) p) :=
    fun h => ⟨trivial, hp _, trivial, h, hp _⟩
  have hc : ∀ {α : Type} {p : E F α}, P.All (P.labelled (env J) inserted) p →
      P.All (P.labelled (env J) inserted) (.sepBy p (punct ',')) :=
    fun h => ⟨trivial, trivial, trivial, h, trivial, trivial, hp _, h⟩
  have hm : P.All (P.labelled (env J) inserted) (member J) :=
    ⟨trivial, ⟨trivial, ⟨lang_a ha, hs⟩, hp _⟩, trivial⟩
  have hsc : P.All (P.labelled (env J) inserted) (scalar J) :=
    ⟨trivial, ⟨trivial, ⟨trivial, ⟨trivial, ⟨trivial, trivial, trivial⟩, trivial, trivial, trivial⟩, trivial, trivial,
      trivial⟩, trivial, trivial, trivial⟩, trivial, hs⟩
  refine ⟨⟨trivial, trivial, trivial⟩, ?_⟩
  rintro i q ⟨⟩
  exact ⟨trivial, trivial, ⟨trivial, ⟨lang_one h1, hsc⟩, trivial, trivial, hb ⟨trivial, hc hm⟩⟩, trivial, trivial,
    hb ⟨trivial, hc trivial⟩⟩

end

end JsonText

variable {F : Type} {J : Fns F} {s : List Char} {k : Int} {fmt : Loc → String} {r : Result Char (V F)} {v : V F}
  {pe : ParseError}

/-- **C80**, wrong input: if `recover=True` and errors are reported, then the value that `unwrap(recover=True)` returns
is the value of the JSON text that results from `s` by the reported edits. (`int` reads `1`, `unescape` leaves `a`
alone: these are the values that the parser inserts.) -/
theorem C80_repaired (h1 : J.int "1" = .ok 1) (ha : J.unescape "a" = .ok "a")
    (h : Returns (env J) parser s (recovering k scannerlessGetLoc) r) (hv : r.unwrap fmt true = .ok v)
    (he : r.unwrap fmt false = .error pe) : Text J (edited inserted s 0 pe.edits s.length) v := by
  obtain ⟨u, u', a, hu, h1, h2⟩ := lang_seqr.1 (C46_reported_text inserted (inserts h1 ha) fmt h hv he)
  exact ⟨u, u', hu, lang_ows h1, lang_value h2⟩

/-- C80: so the text with the reported edits applied is accepted, with the same value. -/
theorem C80_reparse (h1 : J.int "1" = .ok 1) (ha : J.unescape "a" = .ok "a")
    (h : Returns (env J) parser s (recovering k scannerlessGetLoc) r) (hv : r.unwrap fmt true = .ok v)
    (he : r.unwrap fmt false = .error pe) :
    ∃ r', Returns (env J) parser (edited inserted s 0 pe.edits s.length) (plain scannerlessGetLoc) r' ∧
      r'.unwrap fmt false = .ok v :=
  (C80_exact fmt v).2 (C80_repaired h1 ha h hv he)

/-- C80, wrong input, with the regular expressions as written in `tests/parsers/json_scannerless.py`. -/
theorem C82_json_repaired (h1 : J.int "1" = .ok 1) (ha : J.unescape "a" = .ok "a")
    (h : Returns (AsWritten.env J) AsWritten.parser s (recovering k scannerlessGetLoc) r)
    (hv : r.unwrap fmt true = .ok v) (he : r.unwrap fmt false = .error pe) :
    Text J (edited inserted s 0 pe.edits s.length) v := by
  rw [AsWritten.env_eq, AsWritten.parser_eq] at h
  exact C80_repaired h1 ha h hv he

/-! ### A sample -/

namespace Samples

set_option maxRecDepth 100000 in
/-- (`int` is the length here.) `[2,]` is repaired as `[2,1]`. -/
example : ∃ r v pe, Returns (env jsonText) parser "[2,]".toList (recovering 5 scannerlessGetLoc) r ∧
    r.unwrap defaultFmtLoc true = .ok v ∧ r.unwrap defaultFmtLoc false = .error pe ∧
    v = .list [.int 1, .int 1] ∧ edited inserted "[2,]".toList 0 pe.edits "[2,]".toList.length = "[2,1]".toList :=
  ⟨_, _, _, ⟨24, rfl⟩, rfl, rfl, rfl, rfl⟩

end Samples

end Reparsec
