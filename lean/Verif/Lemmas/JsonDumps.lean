import Verif.Lemmas.JsonString

/-!
# What `json.dumps` writes
-/

namespace Reparsec.JsonText

open Json

variable {F : Type} {float : String → Except Exn F}

/-! ### Strings -/

theorem hexChar_digit (n : Nat) (h : n < 16) : HexDigit (hexChar n) n := by
  have : ∀ k : Fin 16, isHex (hexChar k) = true ∧ hexDigit (hexChar k) = k := by decide
  obtain ⟨h1, h2⟩ := this ⟨n, h⟩
  have h3 := hexDigit_of_isHex h1
  rw [h2] at h3
  exact h3

theorem uEscape_hex {n : Nat} (h : n < 65536) : ∃ a b c d, uEscape n = ['\\', 'u', a, b, c, d] ∧ Hex4 a b c d n := by
  refine ⟨_, _, _, _, rfl, _, _, _, _, hexChar_digit _ (by omega), hexChar_digit _ (by omega),
    hexChar_digit _ (by omega), hexChar_digit _ (by omega), ?_⟩
  omega

/-- `u` is a way to write `c` inside of a string. -/
def Writes (u : List Char) (n : Nat) : Prop :=
  u ≠ [] ∧ (∀ l, Body l → Body (u ++ l)) ∧ ∀ l x, Spells l x → Spells (u ++ l) (n :: x)

theorem writes_short {c : Char} {n : Nat} (h : Short c n) : Writes ['\\', c] n :=
  ⟨by simp, fun _ hl => .escape (isSimple_iff.1 h.table.1) hl, fun _ _ hl => .short h hl⟩

theorem writes_uEscape {n : Nat} (h : n < 65536) : Writes (uEscape n) n := by
  obtain ⟨a, b, c, d, h1, h2⟩ := uEscape_hex h
  obtain ⟨⟨ha, hb, hc, hd⟩, -⟩ := h2.isHex
  rw [h1]
  exact ⟨by simp, fun _ hl => .unicode (isHex_iff.1 ha) (isHex_iff.1 hb) (isHex_iff.1 hc) (isHex_iff.1 hd) hl,
    fun _ _ hl => .unicode h2 hl⟩

theorem writes_char {b : Bool} {c : Char} (h : b = true → c.toNat < 65536) : Writes (dumpChar b c) c.toNat := by
  unfold dumpChar
  split
  · next hc => subst hc; exact writes_short .quote
  split
  · next hc => subst hc; exact writes_short .backslash
  split
  · next hc => subst hc; exact writes_short .lineFeed
  split
  · next hc => subst hc; exact writes_short .carriageReturn
  split
  · next hc => subst hc; exact writes_short .tab
  split
  · next hc => rw [hc]; exact writes_short .backspace
  split
  · next hc => rw [hc]; exact writes_short .formFeed
  split
  · next hc => exact writes_uEscape (by omega)
  split
  · next hc =>
    rw [if_pos (h hc.1)]
    exact writes_uEscape (h hc.1)
  · next h1 h2 _ _ _ _ _ h3 _ =>
    refine ⟨by simp, fun _ hl => .char ?_ h1 h2 hl, fun l x hl => .other ?_ hl⟩
    · rw [le_iff_toNat]
      exact Nat.not_lt.1 h3
    · rintro (⟨_, _, _, hl, -⟩ | ⟨_, _, _, _, _, _, hl, -⟩) <;> cases hl <;> exact h2 rfl

theorem writes_all {b : Bool} {l : List Char} (h : b = true → ∀ c ∈ l, c.toNat < 65536) :
    Body (l.flatMap (dumpChar b)) ∧ Spells (l.flatMap (dumpChar b)) (l.map Char.toNat) := by
  induction l with
  | nil => exact ⟨.nil, .nil⟩
  | cons c l ih =>
    have hc := writes_char (b := b) (c := c) fun hb => h hb c List.mem_cons_self
    obtain ⟨h1, h2⟩ := ih fun hb c hc => h hb c (List.mem_cons_of_mem _ hc)
    exact ⟨hc.2.1 _ h1, hc.2.2 _ _ h2⟩

theorem dumpStr_str {o : Dumps F} {s : String} (h : o.Safe s) {b : List Char} (hb : Ws b) :
    Str (pyFns float) (dumpStr o.ensureAscii s ++ b) s := by
  obtain ⟨h1, h2⟩ := writes_all (b := o.ensureAscii) (l := s.toList) h.2
  refine ⟨s.toList.flatMap (dumpChar o.ensureAscii), b, by simp [dumpStr], h1, ?_, hb, unescape_iff.2 h2⟩
  cases hs : s.toList with
  | nil =>
    have : s = "" := by rw [← String.ofList_toList (s := s), hs]
    exact absurd this h.1
  | cons c l =>
    intro he
    simp only [List.flatMap_cons, List.append_eq_nil_iff] at he
    exact (writes_char (b := o.ensureAscii) (c := c) fun hb => h.2 hb c (by simp [hs])).1 he.1

/-! ### Integers -/

theorem digitChar_digit {n : Nat} (h : n < 10) : n.digitChar = Char.ofNat ('0'.toNat + n) := by
  have : ∀ k : Fin 10, (k : Nat).digitChar = Char.ofNat ('0'.toNat + k) := by decide
  exact this ⟨n, h⟩

theorem toDigits_decimal (n : Nat) : Decimal (Nat.toDigits 10 n) n := by
  induction n using Nat.strongRecOn with
  | ind n ih =>
    by_cases h : n < 10
    · rw [Nat.toDigits_of_lt_base h, digitChar_digit h]
      exact .digit ⟨n, h⟩
    · rw [Nat.toDigits_of_base_le (by decide) (by omega), digitChar_digit (Nat.mod_lt _ (by decide))]
      have := Decimal.more ⟨n % 10, Nat.mod_lt _ (by decide)⟩ (ih (n / 10) (by omega))
      simp only [Nat.div_add_mod] at this
      exact this

theorem toDigits_first {n : Nat} (hn : 0 < n) : ∃ c l, Nat.toDigits 10 n = c :: l ∧ '1' ≤ c ∧ c ≤ '9' := by
  induction n using Nat.strongRecOn with
  | ind n ih =>
    by_cases h : n < 10
    · rw [Nat.toDigits_of_lt_base h, digitChar_digit h]
      have : ∀ k : Fin 10, 0 < (k : Nat) → '1' ≤ Char.ofNat ('0'.toNat + k) ∧ Char.ofNat ('0'.toNat + k) ≤ '9' := by
        decide
      exact ⟨_, _, rfl, this ⟨n, h⟩ hn⟩
    · rw [Nat.toDigits_of_base_le (by decide) (by omega)]
      obtain ⟨c, l, h1, h2⟩ := ih (n / 10) (by omega) (by omega)
      exact ⟨c, l ++ [(n % 10).digitChar], by rw [h1]; rfl, h2⟩

theorem toDigits_natural (n : Nat) : Natural (Nat.toDigits 10 n) := by
  by_cases h : n = 0
  · subst h
    exact .inl rfl
  · obtain ⟨c, l, h1, h2⟩ := toDigits_first (Nat.pos_of_ne_zero h)
    refine .inr ⟨c, l, h1, h2, fun x hx => ?_⟩
    exact (toDigits_decimal n).fold.1.2 x (by rw [h1]; exact List.mem_cons_of_mem _ hx)

theorem int_written (i : Int) : Integer (toString i).toList ∧ DecimalInt (toString i).toList i := by
  cases i with
  | ofNat n =>
    have : (toString (Int.ofNat n)).toList = Nat.toDigits 10 n := by
      show (Nat.repr n).toList = _
      simp [Nat.repr]
    rw [this]
    exact ⟨⟨_, toDigits_natural n, .inl rfl⟩, .inl ⟨n, toDigits_decimal n, rfl⟩⟩
  | negSucc n =>
    have : (toString (Int.negSucc n)).toList = '-' :: Nat.toDigits 10 (n + 1) := by
      show ("-" ++ Nat.repr (n + 1)).toList = _
      simp [Nat.repr]
    rw [this]
    exact ⟨⟨_, toDigits_natural (n + 1), .inr rfl⟩, .inr ⟨_, n + 1, rfl, toDigits_decimal (n + 1), rfl⟩⟩

/-! ### White space -/

theorem Ws.append {a b : List Char} (ha : Ws a) (hb : Ws b) : Ws (a ++ b) := by
  intro x hx
  rcases List.mem_append.1 hx with hx | hx
  · exact ha x hx
  · exact hb x hx

theorem Mark.append {p : Char} {a b : List Char} (ha : Mark p a) (hb : Ws b) : Mark p (a ++ b) := by
  obtain ⟨c, rfl, hc⟩ := ha
  exact ⟨c ++ b, rfl, hc.append hb⟩

theorem Str.append {J : Fns F} {w b : List Char} {x : String} (h : Str J w x) (hb : Ws b) : Str J (w ++ b) x := by
  obtain ⟨t, c, rfl, h1, h2, h3, h4⟩ := h
  exact ⟨t, c ++ b, by simp, h1, h2, h3.append hb, h4⟩

theorem Denotes.append {J : Fns F} {w b : List Char} {v : V F} (h : Denotes J w v) (hb : Ws b) :
    Denotes J (w ++ b) v := by
  cases h with
  | int h1 h2 h3 => rw [List.append_assoc]; exact .int h1 h2 (h3.append hb)
  | float h1 h2 h3 => rw [List.append_assoc]; exact .float h1 h2 (h3.append hb)
  | true h => exact .true (h.append hb)
  | false h => exact .false (h.append hb)
  | null h => exact .null (h.append hb)
  | str h => exact .str (h.append hb)
  | list h1 h2 h3 h4 =>
    rw [List.append_assoc, List.append_assoc]
    exact .list h1 h2 h3 (h4.append hb)
  | dict h1 h2 h3 h4 h5 =>
    rw [List.append_assoc, List.append_assoc]
    exact .dict h1 h2 h3 h4 (h5.append hb)

theorem line_ws {o : Dumps F} (h : o.OK float) (n : Nat) : Ws (o.line n) := by
  unfold Dumps.line
  cases hi : o.indent with
  | none => nofun
  | some x =>
    intro y hy
    rcases List.mem_cons.1 hy with rfl | hy
    · exact .inr (.inl rfl)
    · obtain ⟨z, hz, hy⟩ := List.mem_flatten.1 hy
      rw [(List.mem_replicate.1 hz).2] at hy
      exact h.indent x hi y hy

/-! ### Lists and objects -/

theorem intercalate_cons₂ {sep x y : List Char} {l : List (List Char)} :
    List.intercalate sep (x :: y :: l) = x ++ (sep ++ List.intercalate sep (y :: l)) := by
  simp [List.intercalate, List.intersperse]

theorem intercalate_one {sep x : List Char} : List.intercalate sep [x] = x := by
  simp [List.intercalate, List.intersperse]

theorem list_items {o : Dumps F} {J : Fns F} {a c e : List Char} (ha : Ws a) (hc : Mark ',' c) (he : Ws e) (n : Nat)
    (vs : List (V F)) (h : ∀ v ∈ vs, Denotes J (o.dump n v) v) (hne : vs ≠ []) :
    ∃ items : List (List Char × V F), items.map (·.2) = vs ∧ (∀ x ∈ items, Denotes J x.1 x.2) ∧
      Commas (items.map (·.1)) (List.intercalate (a ++ c) (o.dumpList n vs) ++ e) := by
  induction vs with
  | nil => exact absurd rfl hne
  | cons v vs ih =>
    have hv := h v List.mem_cons_self
    cases vs with
    | nil =>
      refine ⟨[(o.dump n v ++ e, v)], rfl, ?_, ?_⟩
      · intro x hx
        rw [List.mem_singleton.1 hx]
        exact hv.append he
      · simp only [Dumps.dumpList, intercalate_one]
        exact .one
    | cons v' vs =>
      obtain ⟨items, h1, h2, h3⟩ := ih (fun v hv => h v (List.mem_cons_of_mem _ hv)) (by simp)
      cases items with
      | nil => cases h1
      | cons i items =>
        refine ⟨(o.dump n v ++ a, v) :: i :: items, by rw [List.map_cons, h1], ?_, ?_⟩
        · intro x hx
          rcases List.mem_cons.1 hx with rfl | hx
          · exact hv.append ha
          · exact h2 x hx
        · have := Commas.more (w := o.dump n v ++ a) hc h3
          simp only [Dumps.dumpList, intercalate_cons₂, List.append_assoc, List.map_cons] at this ⊢
          exact this

theorem dict_items {o : Dumps F} {float : String → Except Exn F} {a c e : List Char} (ha : Ws a) (hc : Mark ',' c)
    (he : Ws e) (hk : ∃ a b, o.keySep = a ++ ':' :: b ∧ Ws a ∧ Ws b) (n : Nat) (kvs : List (String × V F))
    (h0 : ∀ kv ∈ kvs, o.Safe kv.1) (h : ∀ kv ∈ kvs, Denotes (pyFns float) (o.dump n kv.2) kv.2) (hne : kvs ≠ []) :
    ∃ items : List (Item F), items.map (fun x => (x.name, x.value)) = kvs ∧
      (∀ x ∈ items, Str (pyFns float) x.key x.name ∧ Mark ':' x.colon) ∧
      (∀ x ∈ items, Denotes (pyFns float) x.rest x.value) ∧
      Commas (items.map Item.text) (List.intercalate (a ++ c) (o.dumpDict n kvs) ++ e) := by
  obtain ⟨a', b', hk, ha', hb'⟩ := hk
  induction kvs with
  | nil => exact absurd rfl hne
  | cons kv kvs ih =>
    obtain ⟨k, v⟩ := kv
    have hv := h _ List.mem_cons_self
    have hs := dumpStr_str (float := float) (h0 _ List.mem_cons_self) ha'
    cases kvs with
    | nil =>
      refine ⟨[⟨dumpStr o.ensureAscii k ++ a', ':' :: b', o.dump n v ++ e, k, v⟩], rfl, ?_, ?_, ?_⟩
      · intro x hx
        rw [List.mem_singleton.1 hx]
        exact ⟨hs, _, rfl, hb'⟩
      · intro x hx
        rw [List.mem_singleton.1 hx]
        exact hv.append he
      · simp only [Dumps.dumpDict, intercalate_one, hk, List.map_cons, List.map_nil]
        have := Commas.one (w := Item.text ⟨dumpStr o.ensureAscii k ++ a', ':' :: b', o.dump n v ++ e, k, v⟩)
        simp only [Item.text, List.append_assoc, List.cons_append] at this ⊢
        exact this
    | cons kv' kvs =>
      obtain ⟨items, h1, h2, h3, h4⟩ := ih (fun v hv => h0 v (List.mem_cons_of_mem _ hv))
        (fun v hv => h v (List.mem_cons_of_mem _ hv)) (by simp)
      cases items with
      | nil => cases h1
      | cons i items =>
        refine ⟨⟨dumpStr o.ensureAscii k ++ a', ':' :: b', o.dump n v ++ a, k, v⟩ :: i :: items,
          by rw [List.map_cons, h1], ?_, ?_, ?_⟩
        · intro x hx
          rcases List.mem_cons.1 hx with rfl | hx
          · exact ⟨hs, _, rfl, hb'⟩
          · exact h2 x hx
        · intro x hx
          rcases List.mem_cons.1 hx with rfl | hx
          · exact hv.append ha
          · exact h3 x hx
        · have := Commas.more (w := Item.text ⟨dumpStr o.ensureAscii k ++ a', ':' :: b', o.dump n v ++ a, k, v⟩) hc h4
          simp only [Dumps.dumpDict, intercalate_cons₂, hk, List.append_assoc, List.map_cons, Item.text,
            List.cons_append] at this ⊢
          exact this

theorem setItem_new {β : Type} {k : String} {v : β} {d : List (String × β)} (h : k ∉ d.map (·.1)) :
    setItem k v d = d ++ [(k, v)] := by
  induction d with
  | nil => rfl
  | cons kv d ih =>
    obtain ⟨k', v'⟩ := kv
    simp only [List.map_cons, List.mem_cons, not_or] at h
    simp only [setItem, if_neg (Ne.symm h.1), ih h.2, List.cons_append]

theorem foldl_setItem {β : Type} (kvs d : List (String × β)) (h : ((d ++ kvs).map (·.1)).Nodup) :
    kvs.foldl (fun d kv => setItem kv.1 kv.2 d) d = d ++ kvs := by
  induction kvs generalizing d with
  | nil => simp
  | cons kv kvs ih =>
    have hk : kv.1 ∉ d.map (·.1) := by
      rw [List.map_append, List.nodup_append] at h
      exact fun hm => h.2.2 kv.1 hm kv.1 (by simp) rfl
    rw [List.foldl_cons, setItem_new hk, ih]
    · simp
    · simpa using h

theorem pyDict_nodup {β : Type} {kvs : List (String × β)} (h : (kvs.map (·.1)).Nodup) : pyDict kvs = kvs :=
  foldl_setItem kvs [] h

theorem dumpList_nil {o : Dumps F} {n : Nat} {vs : List (V F)} (h : vs ≠ []) : o.dumpList n vs ≠ [] := by
  cases vs with
  | nil => exact absurd rfl h
  | cons v vs => simp [Dumps.dumpList]

theorem dumpDict_nil {o : Dumps F} {n : Nat} {kvs : List (String × V F)} (h : kvs ≠ []) : o.dumpDict n kvs ≠ [] := by
  cases kvs with
  | nil => exact absurd rfl h
  | cons v vs => simp [Dumps.dumpDict]

theorem dump_denotes {o : Dumps F} (ho : o.OK float) {v : V F} (h : o.Plain v) (n : Nat) :
    Denotes (pyFns float) (o.dump n v) v := by
  have hnil : Ws [] := nofun
  induction h generalizing n with
  | null => exact .null hnil
  | bool b =>
    cases b with
    | false => exact .false hnil
    | true => exact .true hnil
  | int i =>
    obtain ⟨h1, h2⟩ := int_written i
    have := Denotes.int (J := pyFns float) h1 ((parseInt_iff h1).2 h2) hnil
    simpa [Dumps.dump] using this
  | float x =>
    obtain ⟨h1, h2⟩ := ho.repr x
    have := Denotes.float (J := pyFns float) h1 h2 hnil
    simpa [Dumps.dump] using this
  | str h =>
    have := dumpStr_str (float := float) h hnil
    rw [List.append_nil] at this
    exact .str this
  | @list vs h ih =>
    obtain ⟨a, b, hs, ha, hb⟩ := ho.itemSep
    simp only [Dumps.dump, Dumps.items]
    by_cases hv : vs = []
    · subst hv
      exact .list (items := []) (l := ['[']) (w := []) (r := [']']) ⟨_, rfl, hnil⟩ nofun .none ⟨_, rfl, hnil⟩
    · obtain ⟨items, h1, h2, h3⟩ := list_items (o := o) ha (c := ',' :: b ++ o.line (n + 1))
        ⟨_, rfl, hb.append (line_ws ho _)⟩ (line_ws ho n) (n + 1) vs (fun v hv => ih v hv (n + 1)) hv
      rw [if_neg (dumpList_nil hv)]
      have := Denotes.list (l := '[' :: o.line (n + 1)) (r := [']']) ⟨_, rfl, line_ws ho _⟩ h2 h3 ⟨_, rfl, hnil⟩
      rw [h1] at this
      simpa [hs] using this
  | @dict kvs h0 h hn ih =>
    obtain ⟨a, b, hs, ha, hb⟩ := ho.itemSep
    simp only [Dumps.dump, Dumps.items]
    by_cases hv : kvs = []
    · subst hv
      exact .dict (items := []) (l := ['{']) (w := []) (r := ['}']) ⟨_, rfl, hnil⟩ nofun nofun .none ⟨_, rfl, hnil⟩
    · obtain ⟨items, h1, h2, h3, h4⟩ := dict_items (o := o) (float := float) ha (c := ',' :: b ++ o.line (n + 1))
        ⟨_, rfl, hb.append (line_ws ho _)⟩ (line_ws ho n) ho.keySep (n + 1) kvs h0 (fun v hv => ih v hv (n + 1)) hv
      rw [if_neg (dumpDict_nil hv)]
      have := Denotes.dict (l := '{' :: o.line (n + 1)) (r := ['}']) ⟨_, rfl, line_ws ho _⟩ h2 h3 h4 ⟨_, rfl, hnil⟩
      rw [h1, pyDict_nodup hn] at this
      simpa [hs] using this

end Reparsec.JsonText
