import Verif.Spec.Throws
import Verif.Lemmas.GrammarLemmas
import Verif.Spec.Recovery

/-!
# Where an exception comes from: by induction on the evaluation relations
-/

namespace Reparsec

variable {τ ρ : Type} {Γ : ρ → Type} {α β γ : Type} [BEq τ] {env : Env τ ρ Γ} {s : List τ}
  {col : Nat → Nat → Prop}

theorem Throws.toSeqWith {ed : Bool} {p : P τ ρ Γ α} {q : P τ ρ Γ β} {merge : α → β → γ} {m i src e}
    (h : Throws env s col ed (.bind p fun a => .fmap q fun b => .ok (merge a b)) m i src e) :
    Throws env s col ed (.seqWith p q merge) m i src e := by
  cases h with
  | bindL h => exact .seqL h
  | bindR h1 h2 h3 =>
    cases h3 with
    | fmap _ _ h => cases h
    | fmapIn h => exact .seqR h1 h2 h

theorem Throws.inv_alt {ed : Bool} {p q : P τ ρ Γ α} {m i src e}
    (h : Throws env s col ed (.alt p q) m i src e) :
    Throws env s col ed p m i src e ∨ Throws env s col ed q m i src e := by
  cases h with
  | altL h => exact .inl h
  | altR h => exact .inr h

theorem Throws.inv_map {ed : Bool} {p : P τ ρ Γ α} {f : α → β} {m i src e}
    (h : Throws env s col ed (.fmap p fun a => .ok (f a)) m i src e) : Throws env s col ed p m i src e := by
  cases h with
  | fmap _ _ h => cases h
  | fmapIn h => exact h

theorem Throws.inv_pure {ed : Bool} {x : α} {m i src e} : ¬ Throws env s col ed (.pure x) m i src e := by
  intro h; cases h

theorem Throws.toMaybe {ed : Bool} {p : P τ ρ Γ α} {m i src e}
    (h : Throws env s col ed (.alt (.fmap p fun a => .ok (some a)) (.pure none)) m i src e) :
    Throws env s col ed (.maybe p) m i src e := by
  rcases h.inv_alt with h | h
  · exact .maybe h.inv_map
  · exact absurd h Throws.inv_pure

theorem Throws.toRecoverWith {ed : Bool} {p : P τ ρ Γ α} {x : α} {l : String} {m i src e}
    (h : Throws env s col ed (.recoverWithFn p (fun _ _ => .ok x) fun _ => l) m i src e) :
    Throws env s col ed (.recoverWith p x l) m i src e := by
  cases h with
  | recoverWithFn h => exact .recoverWith h
  | recoverWithFnHere _ h => cases h

theorem Der.toRecoverWith {p : P τ ρ Γ α} {x : α} {l : String} {m i es v j}
    (h : Der env s col (.recoverWithFn p (fun _ _ => .ok x) fun _ => l) m i es v j) :
    Der env s col (.recoverWith p x l) m i es v j := by
  cases h with
  | recoverWithFn h => exact .recoverWith h
  | recoverWithFnInsert h => cases h; exact .recoverWithInsert

/-- What an outcome says about the grammar. -/
def Outcome.Accounted (env : Env τ ρ Γ) (s : List τ) (col : Nat → Nat → Prop) (p : P τ ρ Γ α) (m i : Nat) :
    Outcome α → Prop
  | .accepts v j _ => Der env s col p m i [] v j
  | .fails (.rejects _ _ _) => True
  | .fails (.raises e) => ∃ src, Throws env s col false p m i src e

theorem Outcome.Accounted.fail {p : P τ ρ Γ α} {q : P τ ρ Γ β} {m m' i i' x}
    (h : (Outcome.fails x : Outcome α).Accounted env s col p m i)
    (ht : ∀ src e, Throws env s col false p m i src e → Throws env s col false q m' i' src e) :
    (Outcome.fails x : Outcome β).Accounted env s col q m' i' := by
  cases x with
  | rejects _ _ _ => trivial
  | raises e => obtain ⟨src, h⟩ := h; exact ⟨src, ht _ _ h⟩

theorem Outcome.Accounted.step {p : P τ ρ Γ α} {q : P τ ρ Γ α} {m m' i i' o}
    (h : Outcome.Accounted env s col p m i o)
    (hd : ∀ v j, Der env s col p m i [] v j → Der env s col q m' i' [] v j)
    (ht : ∀ src e, Throws env s col false p m i src e → Throws env s col false q m' i' src e) :
    Outcome.Accounted env s col q m' i' o := by
  cases o with
  | accepts v j w => exact hd _ _ h
  | fails x => exact Outcome.Accounted.fail h ht

theorem eval_accounted {p : P τ ρ Γ α} {m i : Nat} {o : Outcome α} (h : Eval env s col p m i o) :
    o.Accounted env s col p m i := by
  induction h with
  | pure => exact .pure
  | pureFn => exact .pureFn rfl
  | pureFnRaises => exact ⟨_, .pureFn rfl⟩
  | unexpected => trivial
  | eof => exact .eof
  | eofNot => trivial
  | satisfy h1 h2 => exact .satisfy h1 h2
  | satisfyNot => trivial
  | satisfyRaises h1 h2 => exact ⟨_, .satisfy (Nat.le_refl _) (fun _ => rfl) h1 h2⟩
  | sym h1 h2 => exact .sym h1 h2
  | symNot => trivial
  | literal h1 => exact .literal h1
  | literalNot => trivial
  | regexp h1 => exact .regexp h1
  | regexpNot => trivial
  | regexpRaises h1 => exact ⟨_, .regexp (Nat.le_refl _) (fun _ => rfl) h1⟩
  | fmap _ h2 ih => exact .fmap ih h2
  | fmapRaises _ h2 ih => exact ⟨_, .fmap ih (fun _ => rfl) h2⟩
  | fmapFails _ ih => exact ih.fail fun _ _ h => .fmapIn h
  | altFirst _ ih => exact .altL ih
  | altFails _ _ ih => exact ih.fail fun _ _ h => .altL h
  | altSecond _ _ _ ih =>
    rename_i o _ _ _
    rcases o with ⟨v, j, w⟩ | (⟨q, w, _ | _⟩ | e)
    · exact .altR ih
    · trivial
    · trivial
    · obtain ⟨src, h⟩ := ih; exact ⟨src, .altR h⟩
  | bindFails _ ih => exact ih.fail fun _ _ h => .bindL h
  | bind _ _ ih1 ih2 =>
    rename_i o _ _
    rcases o with ⟨v, j, w⟩ | (⟨q, w, _ | _⟩ | e)
    · exact .bind ih1 ih2
    · trivial
    · trivial
    · obtain ⟨src, h⟩ := ih2; exact ⟨src, .bindR ih1 (fun _ => rfl) h⟩
  | seqFails _ ih => exact ih.fail fun _ _ h => .seqL h
  | seq _ _ ih1 ih2 =>
    rename_i o _ _
    rcases o with ⟨v, j, w⟩ | (⟨q, w, _ | _⟩ | e)
    · exact .seqWith ih1 ih2
    · trivial
    · trivial
    · obtain ⟨src, h⟩ := ih2; exact ⟨src, .seqR ih1 (fun _ => rfl) h⟩
  | maybe _ ih => exact .maybeSome ih
  | maybeNone _ _ => exact .maybeNone
  | maybeFails _ _ ih => exact ih.fail fun _ _ h => .maybe h
  | manyItem _ _ _ ih1 ih2 =>
    rename_i o _ _ _
    rcases o with ⟨v, j, w⟩ | (⟨q, w, _ | _⟩ | e)
    · exact .manyCons ih1 ih2
    · trivial
    · trivial
    · obtain ⟨src, h⟩ := ih2; exact ⟨src, .manyLater ih1 (fun _ => rfl) h⟩
  | manyEnd _ _ => exact .manyNil
  | manyFails _ _ ih => exact ih.fail fun _ _ h => .manyHere h
  | manyEmpty _ ih => exact ⟨_, .manyEmpty ih⟩
  | attempt _ ih =>
    rename_i o _
    rcases o with ⟨v, j, w⟩ | (⟨q, w, b⟩ | e)
    · exact .attempt ih
    · trivial
    · obtain ⟨src, h⟩ := ih; exact ⟨src, .attempt h⟩
  | label _ ih =>
    rename_i o _
    rcases o with ⟨v, j, w⟩ | (⟨q, w, _ | _⟩ | e)
    · exact .label ih
    · trivial
    · trivial
    · obtain ⟨src, h⟩ := ih; exact ⟨src, .label h⟩
  | recover _ ih => exact ih.step (fun _ _ h => .recover h) fun _ _ h => .recover h
  | recoverWith _ ih => exact ih.step (fun _ _ h => .recoverWith h) fun _ _ h => .recoverWith h
  | recoverWithFn _ ih => exact ih.step (fun _ _ h => .recoverWithFn h) fun _ _ h => .recoverWithFn h
  | block hc _ ih => exact ih.step (fun _ _ h => .block hc h) fun _ _ h => .block hc h
  | aligned hc _ ih => exact ih.step (fun _ _ h => .aligned hc h) fun _ _ h => .aligned hc h
  | alignedNot => trivial
  | indented hc he _ ih => exact ih.step (fun _ _ h => .indented hc he h) fun _ _ h => .indented hc he h
  | indentedNot => trivial
  | ref he _ ih => exact ih.step (fun _ _ h => .ref he h) fun _ _ h => .ref he h
  | refUndefined he => exact ⟨_, .refUndefined he⟩

/-- Edits or no edits. -/
theorem Throws.anyEdits {p : P τ ρ Γ α} {m i src e} (h : Throws env s col false p m i src e) :
    Throws env s col true p m i src e := by
  have ff : ∀ {x : Prop}, true = false → x := fun h => by cases h
  induction h with
  | pureFn h => exact .pureFn h
  | satisfy h1 _ h2 h3 => exact .satisfy h1 ff h2 h3
  | regexp h1 _ h2 => exact .regexp h1 ff h2
  | fmap h1 _ h2 => exact .fmap h1 ff h2
  | fmapIn _ ih => exact .fmapIn ih
  | altL _ ih => exact .altL ih
  | altR _ ih => exact .altR ih
  | bindL _ ih => exact .bindL ih
  | bindR h1 _ _ ih => exact .bindR h1 ff ih
  | seqL _ ih => exact .seqL ih
  | seqR h1 _ _ ih => exact .seqR h1 ff ih
  | maybe _ ih => exact .maybe ih
  | manyHere _ ih => exact .manyHere ih
  | manyLater h1 _ _ ih => exact .manyLater h1 ff ih
  | manyEmpty h => exact .manyEmpty h
  | attempt _ ih => exact .attempt ih
  | label _ ih => exact .label ih
  | recover _ ih => exact .recover ih
  | recoverWith _ ih => exact .recoverWith ih
  | recoverWithFn _ ih => exact .recoverWithFn ih
  | recoverWithFnHere h => cases h
  | block hc _ ih => exact .block hc ih
  | aligned hc _ ih => exact .aligned hc ih
  | indented hc he _ ih => exact .indented hc he ih
  | ref he _ ih => exact .ref he ih
  | refUndefined he => exact .refUndefined he

/-- What a finding says about the grammar. -/
def Finding.Accounted (env : Env τ ρ Γ) (s : List τ) (col : Nat → Nat → Prop) (p : P τ ρ Γ α) (m i : Nat) :
    Finding α → Prop
  | .accepts v j _ => Der env s col p m i [] v j
  | .rejects _ _ _ => True
  | .repairs cs _ _ _ => ∀ c ∈ cs, ∃ es, Der env s col p m i es c.value c.stop
  | .raises e => ∃ src, Throws env s col true p m i src e

theorem Finding.Accounted.step {p : P τ ρ Γ α} {q : P τ ρ Γ α} {m m' i i' o}
    (h : Finding.Accounted env s col p m i o)
    (hd : ∀ es v j, Der env s col p m i es v j → ∃ es', (es = [] → es' = []) ∧ Der env s col q m' i' es' v j)
    (ht : ∀ src e, Throws env s col true p m i src e → Throws env s col true q m' i' src e) :
    Finding.Accounted env s col q m' i' o := by
  cases o with
  | accepts _ _ _ => obtain ⟨es, h1, h2⟩ := hd _ _ _ h; rw [h1 rfl] at h2; exact h2
  | rejects _ _ _ => trivial
  | repairs cs _ _ _ =>
    intro c hc
    obtain ⟨es, h⟩ := h c hc
    obtain ⟨es', -, h⟩ := hd _ _ _ h
    exact ⟨es', h⟩
  | raises e => obtain ⟨src, h⟩ := h; exact ⟨src, ht _ _ h⟩

/-- The same derivations and exceptions. -/
theorem Finding.Accounted.same {p : P τ ρ Γ α} {q : P τ ρ Γ α} {m m' i i' o}
    (h : Finding.Accounted env s col p m i o)
    (hd : ∀ es v j, Der env s col p m i es v j → Der env s col q m' i' es v j)
    (ht : ∀ src e, Throws env s col true p m i src e → Throws env s col true q m' i' src e) :
    Finding.Accounted env s col q m' i' o :=
  h.step (fun es _ _ h => ⟨es, id, hd _ _ _ h⟩) ht

theorem mem_andThenAll {k : Int} {merge : α → β → γ} {cs : List (Cand α)} {os : List (Finding β)} {z}
    (h : z ∈ andThenAll k merge cs os) :
    ∃ (n : Nat) (d : Cand α) (o : Finding β), cs[n]? = some d ∧ os[n]? = some o ∧
      z ∈ Cand.andThen k merge d o := by
  simp only [andThenAll, List.mem_flatten] at h
  obtain ⟨l, hl, hz⟩ := h
  obtain ⟨n, hn⟩ := List.mem_iff_getElem?.1 hl
  rw [List.getElem?_zipWith] at hn
  cases hc : cs[n]? with
  | none => simp [hc] at hn
  | some d =>
    cases ho : os[n]? with
    | none => simp [hc, ho] at hn
    | some o =>
      simp only [hc, ho, Option.some.injEq] at hn
      exact ⟨n, d, o, hc, ho, hn ▸ hz⟩

/-- Candidates of a sequence. -/
theorem andThen_accounted {k : Int} {merge : α → β → γ} {q : P τ ρ Γ β} {r : P τ ρ Γ γ}
    {m m' i : Nat} {d : Cand α} {o : Finding β} {es : List Step}
    (h2 : o.Accounted env s col q m' d.stop)
    (hd : ∀ es' v j, Der env s col q m' d.stop es' v j → Der env s col r m i (es ++ es') (merge d.value v) j)
    {z : Cand γ} (hz : z ∈ Cand.andThen k merge d o) :
    ∃ es, Der env s col r m i es z.value z.stop := by
  cases o with
  | accepts v j w =>
    simp only [Cand.andThen, List.mem_singleton] at hz
    subst hz
    exact ⟨_, hd _ _ _ h2⟩
  | rejects _ _ _ => simp [Cand.andThen] at hz
  | repairs ds _ _ _ =>
    simp only [Cand.andThen, List.mem_map] at hz
    obtain ⟨c, hc, rfl⟩ := hz
    obtain ⟨es', h⟩ := h2 c hc
    exact ⟨_, hd _ _ _ h⟩
  | raises e => simp [Cand.andThen] at hz

theorem mapM_error {γ : Type} {f : γ → Except Exn β} : ∀ {cs : List γ} {e : Exn},
    cs.mapM f = .error e → ∃ c ∈ cs, f c = .error e := by
  intro cs
  induction cs with
  | nil => intro e h; simp [pure, Except.pure] at h
  | cons c cs ih =>
    intro e h
    rw [List.mapM_cons] at h
    cases hf : f c with
    | error e' =>
      simp [hf, bind, Except.bind] at h
      exact ⟨c, by simp, by rw [hf, h]⟩
    | ok v =>
      simp only [hf, bind, Except.bind] at h
      cases hm : cs.mapM f with
      | error e' =>
        simp only [hm, Except.error.injEq] at h
        obtain ⟨c', h1, h2⟩ := ih hm
        exact ⟨c', by simp [h1], by rw [h2, h]⟩
      | ok vs => simp [hm, pure, Except.pure] at h

theorem mapM_ok_mem {γ : Type} {f : γ → Except Exn β} : ∀ {cs : List γ} {ds : List β},
    cs.mapM f = .ok ds → ∀ d ∈ ds, ∃ c ∈ cs, f c = .ok d := by
  intro cs
  induction cs with
  | nil => intro ds h; simp [pure, Except.pure] at h; subst h; simp
  | cons c cs ih =>
    intro ds h
    rw [List.mapM_cons] at h
    cases hf : f c with
    | error e' => simp [hf, bind, Except.bind] at h
    | ok v =>
      simp only [hf, bind, Except.bind] at h
      cases hm : cs.mapM f with
      | error e' => simp [hm] at h
      | ok vs =>
        simp only [hm, pure, Except.pure, Except.ok.injEq] at h
        subst h
        intro d hd
        rcases List.mem_cons.1 hd with rfl | hd
        · exact ⟨c, by simp, hf⟩
        · obtain ⟨c', h1, h2⟩ := ih hm d hd
          exact ⟨c', by simp [h1], h2⟩

theorem insertions_accounted {p : P τ ρ Γ α} {m i : Nat} {r : Int} {x : α} {l : String}
    (h : ∃ es, Der env s col p m i es x i) :
    ∀ c ∈ insertions r i x l, ∃ es, Der env s col p m i es c.value c.stop := by
  intro c hc
  unfold insertions at hc
  split at hc
  · simp at hc
  · simp only [List.mem_singleton] at hc
    subst hc; exact h

theorem choice_accounted {p q : P τ ρ Γ α} {m i q1 : Nat} {w} {o1 o2 : Finding α}
    (h1 : o1.Accounted env s col p m i) (h2 : o2.Accounted env s col q m i) :
    (Finding.choice q1 w o1 o2).Accounted env s col (.alt p q) m i := by
  have hl : ∀ cs : List (Cand α), (∀ c ∈ cs, ∃ es, Der env s col p m i es c.value c.stop) →
      ∀ c ∈ cs.map (Cand.relabel w), ∃ es, Der env s col (.alt p q) m i es c.value c.stop := by
    intro cs h c hc
    obtain ⟨d, hd, rfl⟩ := List.mem_map.1 hc
    obtain ⟨es, h⟩ := h d hd
    exact ⟨es, .altL h⟩
  have hr : ∀ cs : List (Cand α), (∀ c ∈ cs, ∃ es, Der env s col q m i es c.value c.stop) →
      ∀ c ∈ cs.map (Cand.relabel w), ∃ es, Der env s col (.alt p q) m i es c.value c.stop := by
    intro cs h c hc
    obtain ⟨d, hd, rfl⟩ := List.mem_map.1 hc
    obtain ⟨es, h⟩ := h d hd
    exact ⟨es, .altR h⟩
  cases o1 with
  | raises e => obtain ⟨src, h⟩ := h1; exact ⟨src, .altL h⟩
  | accepts v j w' =>
    cases o2 with
    | raises e => obtain ⟨src, h⟩ := h2; exact ⟨src, .altR h⟩
    | accepts v j w' => trivial
    | rejects _ _ _ => trivial
    | repairs ds _ _ _ => exact hr _ h2
  | rejects _ _ _ =>
    cases o2 with
    | raises e => obtain ⟨src, h⟩ := h2; exact ⟨src, .altR h⟩
    | accepts v j w' => trivial
    | rejects _ _ _ => trivial
    | repairs ds _ _ _ => exact hr _ h2
  | repairs cs _ _ _ =>
    cases o2 with
    | raises e => obtain ⟨src, h⟩ := h2; exact ⟨src, .altR h⟩
    | accepts v j w' => exact hl _ h1
    | rejects _ _ _ => exact hl _ h1
    | repairs ds _ _ _ =>
      intro c hc
      rw [List.map_append] at hc
      rcases List.mem_append.1 hc with hc | hc
      · exact hl _ h1 c hc
      · exact hr (ds.filter _) (fun d hd => h2 d ((List.mem_filter.1 hd).1)) c hc

theorem orInsert_accounted {p : P τ ρ Γ α} {fn : List τ → Nat → Except Exn α} {lbl : α → String}
    {m i : Nat} {r : Int} {x : α} {o : Finding α} (hx : fn s i = .ok x)
    (ih : o.Accounted env s col p m i) :
    (o.orInsert r i x (lbl x)).Accounted env s col (.recoverWithFn p fn lbl) m i := by
  have hin : ∀ w, ∃ es, Der env s col (.recoverWithFn p fn lbl) m i es
      (Cand.userInsert r i x (lbl x) w).value (Cand.userInsert r i x (lbl x) w).stop :=
    fun w => ⟨_, Der.recoverWithFnInsert hx⟩
  cases o with
  | accepts v j w => exact .recoverWithFn ih
  | rejects _ _ b =>
    cases b with
    | true => trivial
    | false =>
      intro c hc
      simp only [List.mem_singleton] at hc
      subst hc
      exact hin _
  | repairs cs _ _ b =>
    have hold : ∀ c ∈ cs, ∃ es, Der env s col (.recoverWithFn p fn lbl) m i es c.value c.stop := by
      intro c hc
      obtain ⟨es, h⟩ := ih c hc
      exact ⟨es, .recoverWithFn h⟩
    cases b with
    | true => exact hold
    | false =>
      intro c hc
      rcases List.mem_cons.1 hc with rfl | hc
      · exact hin _
      · exact hold c hc
  | raises e => obtain ⟨src, h⟩ := ih; exact ⟨src, .recoverWithFn h⟩

theorem rec_accounted {k : Int} {p : P τ ρ Γ α} {m i : Nat} {b : Option Int} {o : Finding α}
    (h : Rec env s col k p m i b o) : i ≤ s.length → o.Accounted env s col p m i := by
  have ff : ∀ {x : Prop}, true = false → x := fun h => by cases h
  have hle : ∀ {β : Type} {p : P τ ρ Γ β} {m i es v j}, Der env s col p m i es v j → i ≤ s.length →
      j ≤ s.length := fun h h' => (der_inOrder h h').2
  induction h with
  | pure => intro _; exact .pure
  | pureFn => intro _; exact .pureFn rfl
  | pureFnRaises => intro _; exact ⟨_, .pureFn rfl⟩
  | unexpected => intro _; trivial
  | eof => intro _; exact .eof
  | eofNot => intro _; trivial
  | eofSkip h =>
    intro hi c hc
    simp only [List.mem_singleton] at hc
    subst hc
    exact ⟨_, .eofSkip (by omega)⟩
  | satisfy h1 h2 => intro _; exact .satisfy h1 h2
  | satisfyRaises h1 h2 => intro _; exact ⟨_, .satisfy (Nat.le_refl _) ff h1 h2⟩
  | satisfyNot => intro _; trivial
  | satisfySkip h1 _ h2 h3 =>
    intro _ c hc
    simp only [List.mem_singleton] at hc
    subst hc
    exact ⟨_, .satisfySkip h1 h2 h3⟩
  | satisfyNever => intro _; trivial
  | satisfySkipRaises h1 _ h2 h3 => intro _; exact ⟨_, .satisfy (Nat.le_of_lt h1) ff h2 h3⟩
  | sym h1 h2 => intro _; exact .sym h1 h2
  | symNot => intro _; trivial
  | symSkip h1 _ h2 h3 =>
    intro _ c hc
    rcases List.mem_append.1 hc with hc | hc
    · exact insertions_accounted ⟨_, .symInsert⟩ c hc
    · simp only [List.mem_singleton] at hc
      subst hc
      exact ⟨_, .symSkip h1 h2 h3⟩
  | symNever _ => intro _ c hc; exact insertions_accounted ⟨_, .symInsert⟩ c hc
  | literal h1 => intro _; exact .literal h1
  | literalNot => intro _; trivial
  | literalSkip h1 _ h2 =>
    intro _ c hc
    rcases List.mem_append.1 hc with hc | hc
    · exact insertions_accounted ⟨_, .literalInsert⟩ c hc
    · simp only [List.mem_singleton] at hc
      subst hc
      exact ⟨_, .literalSkip h1 h2⟩
  | literalNever _ => intro _ c hc; exact insertions_accounted ⟨_, .literalInsert⟩ c hc
  | regexp h1 => intro _; exact .regexp h1
  | regexpRaises h1 => intro _; exact ⟨_, .regexp (Nat.le_refl _) ff h1⟩
  | regexpNot => intro _; trivial
  | regexpSkip h1 h2 _ h3 =>
    intro _ c hc
    simp only [List.mem_singleton] at hc
    subst hc
    exact ⟨_, .regexpSkip h1 h2 h3⟩
  | regexpNever => intro _; trivial
  | regexpSkipRaises h1 h2 _ h3 => intro _; exact ⟨_, .regexp (Nat.le_of_lt h1) ff h3⟩
  | fmap _ ih =>
    rename_i fn _ _ _ o _
    intro hi
    have ih := ih hi
    cases o with
    | accepts v j w =>
      simp only [Finding.mapM]
      split
      · next h => exact .fmap ih h
      · next h => exact ⟨_, .fmap ih ff h⟩
    | rejects _ _ _ => trivial
    | repairs cs q w b =>
      simp only [Finding.mapM]
      split
      · next ds h =>
        intro c hc
        obtain ⟨d, hd, hf⟩ := mapM_ok_mem h c hc
        obtain ⟨es, hder⟩ := ih d hd
        cases hv : fn d.value with
        | error e => simp [hv, Except.map] at hf
        | ok v =>
          simp only [hv, Except.map, Except.ok.injEq] at hf
          subst hf
          exact ⟨es, .fmap hder hv⟩
      · next e h =>
        obtain ⟨d, hd, hf⟩ := mapM_error h
        obtain ⟨es, hder⟩ := ih d hd
        cases hv : fn d.value with
        | error e' =>
          simp only [hv, Except.map, Except.error.injEq] at hf
          subst hf
          exact ⟨_, .fmap hder ff hv⟩
        | ok v => simp [hv, Except.map] at hf
    | raises e => obtain ⟨src, h⟩ := ih; exact ⟨src, .fmapIn h⟩
  | altFirst _ ih => intro hi; exact .altL (ih hi)
  | altFinal _ _ ih => intro hi; exact (ih hi).same (fun _ _ _ h => .altL h) fun _ _ h => .altL h
  | altSecond _ _ _ ih => intro hi; exact .altR (ih hi)
  | altSecondFinal _ _ _ _ ih =>
    intro hi; exact (ih hi).same (fun _ _ _ h => .altR h) fun _ _ h => .altR h
  | altNeither => intro _; trivial
  | altRepair _ _ _ _ _ _ ih1 ih2 => intro hi; exact choice_accounted (ih1 hi) (ih2 hi)
  | altRepairRaises _ _ _ _ _ ih => intro hi; obtain ⟨src, h⟩ := ih hi; exact ⟨src, .altL h⟩
  | bindRejects => intro _; trivial
  | bindRaises _ ih => intro hi; obtain ⟨src, h⟩ := ih hi; exact ⟨src, .bindL h⟩
  | bind _ _ ih1 ih2 =>
    rename_i o _ _
    intro hi
    have ih1 := ih1 hi
    have ih2 := ih2 (hle ih1 hi)
    cases o with
    | accepts v j w => exact .bind ih1 ih2
    | rejects _ _ _ => trivial
    | repairs cs _ _ _ =>
      intro c hc
      obtain ⟨d, hd, rfl⟩ := List.mem_map.1 hc
      obtain ⟨es, h⟩ := ih2 d hd
      exact ⟨_, .bind ih1 h⟩
    | raises e => obtain ⟨src, h⟩ := ih2; exact ⟨src, .bindR ih1 ff h⟩
  | bindRepairs _ _ _ _ ih1 ih2 =>
    intro hi z hz
    obtain ⟨n, d, o, h1, h2, h3⟩ := mem_andThenAll hz
    obtain ⟨es, hd⟩ := ih1 hi d (List.mem_of_getElem? h1)
    exact andThen_accounted (ih2 n d o h1 h2 (hle hd hi)) (fun _ _ _ h => .bind hd h) h3
  | bindRepairsRaises _ _ _ _ _ ih1 _ ih2 =>
    intro hi
    obtain ⟨es, hd⟩ := ih1 hi _ (List.mem_append_right _ (List.mem_cons_self ..))
    obtain ⟨src, h⟩ := ih2 (hle hd hi)
    exact ⟨src, .bindR hd ff h⟩
  | seq _ ih => intro hi; exact (ih hi).same (fun _ _ _ h => h.toSeqWith) fun _ _ h => h.toSeqWith
  | maybe _ ih => intro hi; exact (ih hi).same (fun _ _ _ h => h.toMaybe) fun _ _ h => h.toMaybe
  | manyItem _ _ _ ih1 ih2 =>
    rename_i o _ _ _
    intro hi
    have ih1 := ih1 hi
    have ih2 := ih2 (hle ih1 hi)
    cases o with
    | accepts v j w => exact .manyCons ih1 ih2
    | rejects _ _ _ => trivial
    | repairs cs _ _ _ =>
      intro c hc
      obtain ⟨d, hd, rfl⟩ := List.mem_map.1 hc
      obtain ⟨es, h⟩ := ih2 d hd
      exact ⟨_, .manyCons ih1 h⟩
    | raises e => obtain ⟨src, h⟩ := ih2; exact ⟨src, .manyLater ih1 ff h⟩
  | manyEnd => intro _; exact .manyNil
  | manyRejects => intro _; trivial
  | manyRaises _ ih => intro hi; obtain ⟨src, h⟩ := ih hi; exact ⟨src, .manyHere h⟩
  | manyEmpty _ ih => intro hi; exact ⟨_, .manyEmpty (ih hi)⟩
  | manyRepairs _ _ _ _ ih1 ih2 =>
    intro hi z hz
    obtain ⟨n, d, o, h1, h2, h3⟩ := mem_andThenAll hz
    obtain ⟨es, hd⟩ := ih1 hi d (List.mem_of_getElem? h1)
    exact andThen_accounted (ih2 n d o h1 h2 (hle hd hi)) (fun _ _ _ h => .manyCons hd h) h3
  | manyRepairsRaises _ _ _ _ _ ih1 _ ih2 =>
    intro hi
    obtain ⟨es, hd⟩ := ih1 hi _ (List.mem_append_right _ (List.mem_cons_self ..))
    obtain ⟨src, h⟩ := ih2 (hle hd hi)
    exact ⟨src, .manyLater hd ff h⟩
  | attempt h =>
    rename_i o
    intro _
    have h := eval_accounted h
    rcases o with ⟨v, j, w⟩ | (⟨q, w, b⟩ | e)
    · exact .attempt h
    · trivial
    · obtain ⟨src, h⟩ := h; exact ⟨src, .attempt h.anyEdits⟩
  | attemptRepair _ ih => intro hi; exact (ih hi).same (fun _ _ _ h => .attempt h) fun _ _ h => .attempt h
  | label _ ih =>
    rename_i o _
    intro hi
    have ih := ih hi
    cases o with
    | accepts v j w => exact .label ih
    | rejects _ _ _ => trivial
    | repairs cs _ _ _ =>
      intro c hc
      obtain ⟨d, hd, rfl⟩ := List.mem_map.1 hc
      obtain ⟨es, h⟩ := ih d hd
      exact ⟨_, .label h⟩
    | raises e => obtain ⟨src, h⟩ := ih; exact ⟨src, .label h⟩
  | recover _ ih =>
    rename_i o _
    intro hi
    have ih := ih hi
    cases o with
    | accepts v j w => exact .recover ih
    | rejects _ _ _ => trivial
    | repairs cs _ _ _ =>
      intro c hc
      obtain ⟨d, hd, rfl⟩ := List.mem_map.1 hc
      obtain ⟨es, h⟩ := ih d hd
      exact ⟨_, .recover h⟩
    | raises e => obtain ⟨src, h⟩ := ih; exact ⟨src, .recover h⟩
  | recoverWith _ ih =>
    intro hi; exact (ih hi).same (fun _ _ _ h => h.toRecoverWith) fun _ _ h => h.toRecoverWith
  | recoverWithFnNo _ _ ih =>
    intro hi; exact (ih hi).same (fun _ _ _ h => .recoverWithFn h) fun _ _ h => .recoverWithFn h
  | recoverWithFn _ _ _ hx ih => intro hi; exact orInsert_accounted hx (ih hi)
  | recoverWithFnRaises _ _ _ hx _ => intro _; exact ⟨_, .recoverWithFnHere rfl hx⟩
  | block hc _ ih => intro hi; exact (ih hi).same (fun _ _ _ h => .block hc h) fun _ _ h => .block hc h
  | aligned hc _ ih => intro hi; exact (ih hi).same (fun _ _ _ h => .aligned hc h) fun _ _ h => .aligned hc h
  | alignedNot => intro _; trivial
  | indented hc he _ ih =>
    intro hi; exact (ih hi).same (fun _ _ _ h => .indented hc he h) fun _ _ h => .indented hc he h
  | indentedNot => intro _; trivial
  | ref he _ ih => intro hi; exact (ih hi).same (fun _ _ _ h => .ref he h) fun _ _ h => .ref he h
  | refUndefined he => intro _; exact ⟨_, .refUndefined he⟩

end Reparsec
