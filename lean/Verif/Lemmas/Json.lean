import Verif.Spec.Json
import Verif.Lemmas.Chain

/-!
# The pieces of the JSON parser
-/

namespace Reparsec.Json

open Reparsec

variable {F : Type} {J : Fns F} {α : Type}

theorem punct_beq {x : String} {t : Token} :
    (t == ⟨"punct", x, ⟨0, 0, 0⟩, ⟨0, 0, 0⟩⟩) = true ↔ Punct x t := by
  simp only [BEq.beq, Bool.and_eq_true, decide_eq_true_eq, Punct]

theorem lang_punct {x : String} {w : List Token} {t : Token} :
    Lang (env J) (punct x) w t ↔ w = [t] ∧ Punct x t := by
  constructor
  · intro h
    obtain ⟨rfl, h'⟩ := h.inv
    exact ⟨rfl, punct_beq.1 h'⟩
  · rintro ⟨rfl, h⟩
    exact .sym (punct_beq.2 h)

theorem lang_token {kind : String} {w : List Token} {t : Token} :
    Lang (env J) (.token kind) w t ↔ w = [t] ∧ t.kind = kind := by
  constructor
  · intro h
    obtain ⟨rfl, h'⟩ := h.inv.inv
    exact ⟨rfl, by simpa using h'⟩
  · rintro ⟨rfl, rfl⟩
    exact .label (.satisfy (by simp))

/-- The words of `p.sep_by(punct(","))`. -/
theorem lang_commas {p : E F α} {w : List Token} {vs : List α} :
    Lang (env J) (.sepBy p (punct ",")) w vs ↔ ∃ items : List (List Token × α),
      (∀ x ∈ items, Lang (env J) p x.1 x.2) ∧ Commas (items.map (·.1)) w ∧ vs = items.map (·.2) := by
  constructor
  · intro h
    obtain ⟨o, h0, ho⟩ := h.inv
    cases ho
    rcases h0.inv with ⟨rfl, rfl⟩ | ⟨x, rfl, h'⟩
    · exact ⟨[], by simp, .none, rfl⟩
    · obtain ⟨u, u', a, xs, rfl, rfl, h1, h2⟩ := h'.inv
      have : ∃ items : List (List Token × α), (∀ x ∈ items, Lang (env J) p x.1 x.2) ∧
          xs = items.map (·.2) ∧ ∀ u, Commas (u :: items.map (·.1)) (u ++ u') := by
        refine lang_many_ind (M := fun u' xs => ∃ items : List (List Token × α),
          (∀ x ∈ items, Lang (env J) p x.1 x.2) ∧ xs = items.map (·.2) ∧
            ∀ u, Commas (u :: items.map (·.1)) (u ++ u')) ?_ ?_ h2
        · exact ⟨[], by simp, rfl, fun u => by rw [List.append_nil]; exact .one⟩
        · rintro u x u' xs h - ⟨items, hi, rfl, hc⟩
          obtain ⟨v, v', c, rfl, h3, h4⟩ := lang_seqr.1 h
          obtain ⟨rfl, h3'⟩ := lang_punct.1 h3
          refine ⟨(v', x) :: items, ?_, rfl, fun u => ?_⟩
          · intro y hy
            rcases List.mem_cons.1 hy with rfl | hy
            · exact h4
            · exact hi y hy
          · simpa using Commas.more (w := u) h3' (hc v')
      obtain ⟨items, hi, rfl, hc⟩ := this
      refine ⟨(u, a) :: items, ?_, hc u, rfl⟩
      intro y hy
      rcases List.mem_cons.1 hy with rfl | hy
      · exact h1
      · exact hi y hy
  · rintro ⟨items, hi, hc, rfl⟩
    cases items with
    | nil => cases hc; exact .fmap .maybeNone rfl
    | cons x xs =>
      have key : ∀ (xs : List (List Token × α)) (u w : List Token), (∀ y ∈ xs, Lang (env J) p y.1 y.2) →
          Commas (u :: xs.map (·.1)) w → ∃ w', w = u ++ w' ∧
            Lang (env J) (.many (.seqr (punct ",") p)) w' (xs.map (·.2)) := by
        intro xs
        induction xs with
        | nil => intro u w _ h; cases h; exact ⟨[], by simp, .manyNil⟩
        | cons y ys ih =>
          intro u w hy h
          cases h with
          | @more _ c _ _ r hc h =>
            obtain ⟨w', rfl, h'⟩ := ih _ _ (fun z hz => hy z (List.mem_cons_of_mem _ hz)) h
            refine ⟨c :: (y.1 ++ w'), rfl, ?_⟩
            exact .manyCons (w := c :: y.1) (lang_seqr.2 ⟨[c], y.1, c, rfl, lang_punct.2 ⟨rfl, hc⟩,
              hy y List.mem_cons_self⟩) h'
      obtain ⟨w', rfl, h⟩ := key xs x.1 w (fun y hy => hi y (List.mem_cons_of_mem _ hy)) hc
      exact .fmap (.maybeSome (.seqWith (merge := fun l r => (l, r)) (hi x List.mem_cons_self) h)) rfl

theorem lang_brackets {l r : String} {p : E F α} {w : List Token} {v : α} :
    Lang (env J) (.between (punct l) (punct r) p) w v ↔ ∃ t u t', Punct l t ∧ Lang (env J) p u v ∧
      Punct r t' ∧ w = t :: (u ++ [t']) := by
  constructor
  · intro h
    obtain ⟨u, u', t, rfl, h1, h2⟩ := lang_seqr.1 h
    obtain ⟨u2, u3, t', rfl, h2', h3⟩ := lang_seql.1 h2
    obtain ⟨rfl, h1'⟩ := lang_punct.1 h1
    obtain ⟨rfl, h3'⟩ := lang_punct.1 h3
    exact ⟨t, u2, t', h1', h2', h3', rfl⟩
  · rintro ⟨t, u, t', h1, h2, h3, rfl⟩
    exact lang_seqr.2 ⟨[t], u ++ [t'], t, rfl, lang_punct.2 ⟨rfl, h1⟩,
      lang_seql.2 ⟨u, [t'], t', rfl, h2, lang_punct.2 ⟨rfl, h3⟩⟩⟩

theorem lang_string {w : List Token} {x : String} :
    Lang (env J) (string J) w x ↔ ∃ t, w = [t] ∧ Key J t x := by
  constructor
  · intro h
    obtain ⟨t, h1, hx⟩ := h.inv
    obtain ⟨rfl, h2⟩ := lang_token.1 h1
    exact ⟨t, rfl, h2, hx⟩
  · rintro ⟨t, rfl, h, hx⟩
    exact .fmap (lang_token.2 ⟨rfl, h⟩) hx

theorem lang_member {w : List Token} {x : String × V F} :
    Lang (env J) (member J) w x ↔ ∃ t c u, w = t :: c :: u ∧ Key J t x.1 ∧ Punct ":" c ∧
      Lang (env J) value u x.2 := by
  constructor
  · intro h
    obtain ⟨u, u', a, b, rfl, rfl, h1, h2⟩ := h.inv
    obtain ⟨u1, u2, c, rfl, h4, h3⟩ := lang_seql.1 h1
    obtain ⟨rfl, h5⟩ := lang_punct.1 h3
    obtain ⟨t, rfl, ht⟩ := lang_string.1 h4.inv
    exact ⟨t, c, u', rfl, ht, h5, h2⟩
  · rintro ⟨t, c, u, rfl, ht, hc, hu⟩
    exact .seqWith (w := [t, c]) (merge := fun l r => (l, r))
      (lang_seql.2 ⟨[t], [c], c, rfl, .recoverWith (lang_string.2 ⟨t, rfl, ht⟩), lang_punct.2 ⟨rfl, hc⟩⟩) hu

theorem commas_mem {ws : List (List Token)} {w : List Token} (h : Commas ws w) :
    ∀ u ∈ ws, u.length ≤ w.length := by
  induction h with
  | none => simp
  | one => simp
  | more _ _ ih =>
    intro u hu
    simp only [List.length_append, List.length_cons]
    rcases List.mem_cons.1 hu with rfl | hu
    · omega
    · have := ih u hu; omega

/-- The words of the grammar are JSON texts, and have their values. -/
theorem lang_value : ∀ {n : Nat} {w : List Token} {v : V F}, w.length ≤ n →
    Lang (env J) value w v → Denotes J w v := by
  intro n
  induction n using Nat.strongRecOn with
  | _ n ih =>
  intro w v hn h
  obtain ⟨q, hq, h⟩ := h.inv
  cases hq
  rcases h.inv.inv with h | h
  · rcases h.inv with h | h
    · rcases h.inv.inv with h | h
      · rcases h.inv with h | h
        · rcases h.inv with h | h
          · rcases h.inv with h | h
            · obtain ⟨t, h1, hv⟩ := h.inv
              obtain ⟨rfl, h2⟩ := lang_token.1 h1
              cases hi : J.int t.value with
              | error e => simp only [hi, Except.map] at hv; cases hv
              | ok i => simp only [hi, Except.map] at hv; cases hv; exact .int h2 hi
            · obtain ⟨t, h1, hv⟩ := h.inv
              obtain ⟨rfl, h2⟩ := lang_token.1 h1
              cases hi : J.float t.value with
              | error e => simp only [hi, Except.map] at hv; cases hv
              | ok i => simp only [hi, Except.map] at hv; cases hv; exact .float h2 hi
          · obtain ⟨t, h1, hv⟩ := h.inv
            obtain ⟨rfl, h2⟩ := lang_token.1 h1
            cases hv
            exact .bool h2
        · obtain ⟨t, h1, hv⟩ := h.inv
          obtain ⟨rfl, h2⟩ := lang_token.1 h1
          cases hv
          exact .null h2
      · obtain ⟨x, h1, hv⟩ := h.inv
        obtain ⟨t, rfl, h2, hx⟩ := lang_string.1 h1
        cases hv
        exact .str h2 hx
    · obtain ⟨l, u, r, hl, h0, hr, rfl⟩ := lang_brackets.1 h.inv.inv
      obtain ⟨kvs, h1, hv⟩ := h0.inv
      cases hv
      obtain ⟨items, hi, hc, rfl⟩ := lang_commas.1 h1
      have hlen := commas_mem hc
      simp only [List.length_cons, List.length_append, List.length_nil] at hn
      have hw : ∃ its : List (Item F), items = its.map (fun x => (x.tokens, (x.name, x.value))) ∧
          (∀ x ∈ its, Key J x.key x.name ∧ Punct ":" x.colon) ∧ (∀ x ∈ its, Denotes J x.rest x.value) := by
        have hd : ∀ x ∈ items, ∃ y : Item F, x = (y.tokens, (y.name, y.value)) ∧
            (Key J y.key y.name ∧ Punct ":" y.colon) ∧ Denotes J y.rest y.value := by
          intro x hx
          obtain ⟨t, c, u', hu, h1, h2, h3⟩ := lang_member.1 (hi x hx)
          have hle := hlen x.1 (List.mem_map_of_mem hx)
          rw [hu] at hle
          simp only [List.length_cons] at hle
          refine ⟨⟨t, c, u', x.2.1, x.2.2⟩, ?_, ⟨h1, h2⟩, ih (n - 1) (by omega) (by show u'.length ≤ n - 1; omega) h3⟩
          rw [Item.tokens, ← hu]
        clear hi hc hlen h1
        have hd' := hd
        clear hd
        revert hd'
        generalize items = its
        intro hd
        clear h0
        induction its with
        | nil => exact ⟨[], rfl, by simp, by simp⟩
        | cons x xs ihx =>
          obtain ⟨its, rfl, h1, h2⟩ := ihx fun y hy => hd y (List.mem_cons_of_mem _ hy)
          obtain ⟨y, rfl, h3, h4⟩ := hd _ List.mem_cons_self
          refine ⟨y :: its, rfl, ?_, ?_⟩
          · intro z hz
            rcases List.mem_cons.1 hz with rfl | hz
            · exact h3
            · exact h1 z hz
          · intro z hz
            rcases List.mem_cons.1 hz with rfl | hz
            · exact h4
            · exact h2 z hz
      obtain ⟨its, rfl, h1, h2⟩ := hw
      rw [List.map_map] at hc ⊢
      exact .dict hl h1 h2 hc hr
  · obtain ⟨l, u, r, hl, h0, hr, rfl⟩ := lang_brackets.1 h.inv.inv
    obtain ⟨vs, h1, hv⟩ := h0.inv
    cases hv
    obtain ⟨items, hi, hc, rfl⟩ := lang_commas.1 h1
    have hlen := commas_mem hc
    simp only [List.length_cons, List.length_append, List.length_nil] at hn
    refine .list hl (fun x hx => ?_) hc hr
    have hle := hlen x.1 (List.mem_map_of_mem hx)
    exact ih (n - 1) (by omega) (by omega) (hi x hx)

theorem Denotes.lang {w : List Token} {v : V F} (h : Denotes J w v) : Lang (env J) value w v := by
  have hs : ∀ {w v}, Lang (env J) (scalar J) w v → Lang (env J) value w v := fun h =>
    .ref (x := ()) rfl (.label (.altL (.altL (.recoverWith h))))
  induction h with
  | int h1 h2 =>
    exact hs (.altL (.altL (.altL (.altL (.fmap (lang_token.2 ⟨rfl, h1⟩) (by rw [h2]; rfl))))))
  | float h1 h2 =>
    exact hs (.altL (.altL (.altL (.altR (.fmap (lang_token.2 ⟨rfl, h1⟩) (by rw [h2]; rfl))))))
  | bool h1 => exact hs (.altL (.altL (.altR (.fmap (lang_token.2 ⟨rfl, h1⟩) rfl))))
  | null h1 => exact hs (.altL (.altR (.fmap (lang_token.2 ⟨rfl, h1⟩) rfl)))
  | str h1 h2 => exact hs (.altR (.fmap (lang_string.2 ⟨_, rfl, h1, h2⟩) rfl))
  | @list l r w items hl _ hc hr ih =>
    refine .ref (x := ()) rfl (.label (.altR (.recover (.label (lang_brackets.2 ⟨l, w, r, hl, ?_, hr, rfl⟩)))))
    exact .fmap (lang_commas.2 ⟨items, ih, hc, rfl⟩) rfl
  | @dict l r w items hl h1 _ hc hr ih =>
    refine .ref (x := ()) rfl
      (.label (.altL (.altR (.recover (.label (lang_brackets.2 ⟨l, w, r, hl, ?_, hr, rfl⟩))))))
    refine .fmap (a := items.map fun x => (x.name, x.value))
      (lang_commas.2 ⟨items.map fun x => (x.tokens, (x.name, x.value)), ?_, ?_, ?_⟩) rfl
    · intro x hx
      obtain ⟨y, hy, rfl⟩ := List.mem_map.1 hx
      exact lang_member.2 ⟨y.key, y.colon, y.rest, rfl, (h1 y hy).1, (h1 y hy).2, ih y hy⟩
    · rw [List.map_map]; exact hc
    · rw [List.map_map]; rfl

theorem lang_iff {w : List Token} {v : V F} : Lang (env J) value w v ↔ Denotes J w v :=
  ⟨lang_value (Nat.le_refl _), Denotes.lang⟩

/-! ### `dict` -/

theorem setItem_mem {β : Type} {k : String} {v : β} {d : List (String × β)} (hd : (d.map (·.1)).Nodup)
    (k' : String) (v' : β) :
    (k', v') ∈ setItem k v d ↔ (k' = k ∧ v' = v) ∨ (k' ≠ k ∧ (k', v') ∈ d) := by
  induction d with
  | nil => simp [setItem]
  | cons x d ih =>
    obtain ⟨k1, v1⟩ := x
    simp only [List.map_cons, List.nodup_cons] at hd
    simp only [setItem]
    split
    · next h =>
      subst h
      have hno : ∀ v, (k1, v) ∉ d := fun v h => hd.1 (List.mem_map_of_mem (f := (·.1)) h)
      simp only [List.mem_cons, Prod.mk.injEq]
      constructor
      · rintro (h | h)
        · exact .inl h
        · exact .inr ⟨fun e => hno v' (e ▸ h), .inr h⟩
      · rintro (h | ⟨h1, h | h⟩)
        · exact .inl h
        · exact absurd h.1 h1
        · exact .inr h
    · next h =>
      simp only [List.mem_cons, Prod.mk.injEq, ih hd.2]
      constructor
      · rintro (⟨rfl, rfl⟩ | h' | h')
        · exact .inr ⟨h, .inl ⟨rfl, rfl⟩⟩
        · exact .inl h'
        · exact .inr ⟨h'.1, .inr h'.2⟩
      · rintro (h' | ⟨h1, h' | h'⟩)
        · exact .inr (.inl h')
        · exact .inl h'
        · exact .inr (.inr ⟨h1, h'⟩)

theorem setItem_keys {β : Type} {k : String} {v : β} {d : List (String × β)} (x : String) :
    x ∈ (setItem k v d).map (·.1) ↔ x = k ∨ x ∈ d.map (·.1) := by
  induction d with
  | nil => simp [setItem]
  | cons y d ih =>
    obtain ⟨k1, v1⟩ := y
    simp only [setItem]
    split
    · next h => subst h; simp
    · rw [List.map_cons, List.mem_cons, ih, List.map_cons, List.mem_cons]
      exact ⟨fun h => h.elim (.inr ∘ .inl) (·.elim .inl (.inr ∘ .inr)),
        fun h => h.elim (.inr ∘ .inl) (·.elim .inl (.inr ∘ .inr))⟩

theorem setItem_nodup {β : Type} {k : String} {v : β} {d : List (String × β)} (hd : (d.map (·.1)).Nodup) :
    ((setItem k v d).map (·.1)).Nodup := by
  induction d with
  | nil => simp [setItem]
  | cons y d ih =>
    obtain ⟨k1, v1⟩ := y
    simp only [setItem]
    simp only [List.map_cons, List.nodup_cons] at hd
    split
    · next h => subst h; simpa using hd
    · next h =>
      rw [List.map_cons, List.nodup_cons, setItem_keys]
      exact ⟨fun h' => h'.elim h hd.1, ih hd.2⟩

theorem setItem_order {β : Type} (k : String) (v : β) (d : List (String × β)) :
    (setItem k v d).map (·.1) = if k ∈ d.map (·.1) then d.map (·.1) else d.map (·.1) ++ [k] := by
  induction d with
  | nil => simp [setItem]
  | cons y d ih =>
    obtain ⟨k1, v1⟩ := y
    simp only [setItem]
    split
    · next h => subst h; simp
    · next h =>
      rw [List.map_cons, ih]
      have : ¬ k = k1 := fun e => h e.symm
      simp only [List.map_cons, List.mem_cons, this, false_or]
      split <;> simp

theorem pyDict_snoc {β : Type} (kvs : List (String × β)) (k : String) (v : β) :
    pyDict (kvs ++ [(k, v)]) = setItem k v (pyDict kvs) := by
  simp [pyDict, List.foldl_append]

theorem isDict_pyDict {β : Type} (kvs : List (String × β)) : IsDict kvs (pyDict kvs) := by
  have key : ∀ l : List (String × β), IsDict l.reverse (pyDict l.reverse) := by
    intro l
    induction l with
    | nil => exact ⟨by simp [pyDict], by simp [pyDict], by simp [pyDict]⟩
    | cons x l ih =>
      obtain ⟨k0, v0⟩ := x
      rw [List.reverse_cons]
      generalize l.reverse = kvs at ih ⊢
      obtain ⟨ho, hn, hm⟩ := ih
      rw [pyDict_snoc]
      refine ⟨?_, setItem_nodup hn, fun k v => ?_⟩
      · rw [setItem_order, ho, List.map_append, List.eraseDups_append]
        by_cases h : k0 ∈ kvs.map (·.1)
        · rw [if_pos (List.mem_eraseDups.2 h)]
          simp [List.removeAll, h]
        · rw [if_neg (fun h' => h (List.mem_eraseDups.1 h'))]
          simp [List.removeAll, h, List.eraseDups_cons]
      rw [setItem_mem hn, hm]
      constructor
      · rintro (⟨rfl, rfl⟩ | ⟨hk, a, b, rfl, hb⟩)
        · exact ⟨kvs, [], by simp, by simp⟩
        · refine ⟨a, b ++ [(k0, v0)], by simp, fun v' h => ?_⟩
          rcases List.mem_append.1 h with h | h
          · exact hb v' h
          · simp only [List.mem_singleton, Prod.mk.injEq] at h; exact hk h.1
      · rintro ⟨a, b, he, hb⟩
        rcases List.eq_nil_or_concat b with rfl | ⟨b', ⟨k1, v1⟩, rfl⟩
        · have := List.append_inj' he rfl
          simp only [List.cons.injEq, Prod.mk.injEq, and_true] at this
          exact .inl ⟨this.2.1.symm, this.2.2.symm⟩
        · rw [List.concat_eq_append] at he hb
          rw [← List.cons_append, ← List.append_assoc] at he
          have := List.append_inj' he rfl
          simp only [List.cons.injEq, Prod.mk.injEq, and_true] at this
          obtain ⟨h1, rfl, rfl⟩ := this
          refine .inr ⟨?_, a, b', h1, fun v' h => hb v' (List.mem_append_left _ h)⟩
          rintro rfl
          exact hb v0 (by simp)
  have := key kvs.reverse
  rwa [List.reverse_reverse] at this

end Reparsec.Json
