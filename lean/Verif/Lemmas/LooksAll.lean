import Verif.Lemmas.Looks

/-!
# Expected lists of repairs: primitives, the remaining combinators, and the induction
-/

namespace Reparsec

variable {τ ρ : Type} {Γ : ρ → Type} {α β γ : Type} {s : List τ}

section
variable [BEq τ] {env : Env τ ρ Γ} {D : LocDisc s}

/-! ### Primitives -/

/-- A repair that consists of one operation at the start. -/
theorem RepLook.one {p : P τ ρ Γ α} {m pos : Nat} {k : Int} {e : Step} {r : Repair τ α} {op : OpItem}
    (hd : Der env s D.col p m pos [e] r.value r.pos) (hc : CtxOK D r.ctx r.pos)
    (hops : r.ops = [op]) (ho : op.op = e.edit.op) (hrel : D.rel e.edit.pos op.loc)
    (hpos : e.edit.pos = pos) (hcon : op.consumed = false)
    (hs : ∃ l, LooksAt env D p m pos [] l pos)
    (hl : ∀ l ∈ op.expected, LooksAt env D p m pos [] (some l) pos)
    (hx : r.expected = []) (hcc : NoDrop s.length [e.edit] → r.consumed = true) :
    RepLook env D p m pos (some k) r [e] := by
  refine ⟨hd, ?_, hc, by simp, ?_, fun hn => ⟨hcc hn, by simp [hx]⟩, by simp⟩
  · rw [hops]; exact .cons ho hrel .nil
  · intro i e' op' h1 h2 h3
    rw [hops] at h2
    cases i with
    | succ i => simp at h1
    | zero =>
      simp at h1 h2; subst h1; subst h2
      simp only [List.take_zero, hpos, hcon]
      exact ⟨hl, by simp, fun _ => hs⟩

theorem RepLook.skip {p : P τ ρ Γ α} {pos k stop : Nat} {ctx : Ctx τ} {ins rem : Int} {v : α}
    {ex : List String} (hd : Der env s D.col p ctx.mark pos [.skip pos (k - pos)] v stop)
    (hp : pos ≤ s.length) (hc : CtxOK D ctx pos)
    (hs : ∃ l, LooksAt env D p ctx.mark pos [] l pos)
    (hl : ∀ l ∈ ex, LooksAt env D p ctx.mark pos [] (some l) pos) :
    RepLook env D p ctx.mark pos (some rem)
      (makeSkip ins v stop (ctx.updateLoc s stop) (ctx.getLoc s pos) (k - pos) ex)
      [.skip pos (k - pos)] := by
  have ho := der_inOrder hd hp
  exact .one hd (hc.updateLoc ho.1.le ho.2) rfl rfl (hc.report (Nat.le_refl _) hp) rfl rfl hs hl
    rfl fun _ => rfl

theorem RepLook.insert {p : P τ ρ Γ α} {pos : Nat} {ctx : Ctx τ} {rem : Int} {v : α}
    {l : String} {ex : List String}
    (hd : Der env s D.col p ctx.mark pos [.autoInsert pos l] v pos)
    (hp : pos ≤ s.length) (hc : CtxOK D ctx pos)
    (hs : ∃ l, LooksAt env D p ctx.mark pos [] l pos)
    (hl : ∀ l ∈ ex, LooksAt env D p ctx.mark pos [] (some l) pos) :
    RepLook env D p ctx.mark pos (some rem)
      (makeInsert rem v pos ctx (ctx.getLoc s pos) l ex) [.autoInsert pos l] :=
  .one hd hc rfl rfl (hc.report (Nat.le_refl _) hp) rfl rfl hs hl rfl fun _ => rfl

theorem ErrLook.here {p : P τ ρ Γ α} {m pos : Nat} {ex : List String} {c : Bool}
    {l : Option String} (h : LooksAt env D p m pos [] l pos) (hex : ∀ x ∈ ex, l = some x) :
    ErrLook env D p m pos ex c := fun _ => ⟨⟨l, h⟩, fun x hx => by rw [← hex x hx]; exact h⟩

theorem looks_satisfy {test : τ → Except Exn Bool} {m pos : Nat}
    (h : testAt test s pos = .ok none) :
    LooksAt env D (.satisfy test : P τ ρ Γ τ) m pos [] none pos := by
  refine .satisfy fun t ht => ?_
  unfold testAt at h
  rw [ht] at h
  simp only at h
  cases hb : test t with
  | error e => simp [hb] at h
  | ok b => cases b with
    | false => rfl
    | true => simp [hb] at h

theorem looks_sym {x : τ} {l : String} {m pos : Nat}
    (h : symAt x s pos = none) :
    LooksAt env D (.sym x l : P τ ρ Γ τ) m pos [] (some l) pos := by
  refine .sym fun t ht => ?_
  unfold symAt at h
  rw [ht] at h
  simp only at h
  cases hb : t == x with
  | false => rfl
  | true => simp [hb] at h

theorem looks_literal {x : List τ} {ss : String} {hx : x ≠ []} {m pos : Nat}
    (h : ¬ startsWith x s pos = true) :
    LooksAt env D (.literal x ss hx : P τ ρ Γ (List τ)) m pos [] (some ss) pos := by
  refine .literal ?_
  simpa [startsWith] using h

theorem looks_regexp {mt : Matcher τ β} {m pos : Nat} (h : mt.at s pos = .ok none) :
    LooksAt env D (.regexp mt : P τ ρ Γ β) m pos [] none pos := by
  refine .regexp fun j v hr => ?_
  unfold Matcher.at at h
  rw [hr] at h
  simp at h

theorem look_pureFn (x : Except Exn α) : LookAt env D (.pureFn x : P τ ρ Γ α) (pureFnFns x) := by
  intro pos ctx ins rem r hp hc hr
  cases x with
  | error e => simp [pureFnFns] at hr
  | ok v => simp [pureFnFns] at hr; subst hr; exact ⟨.pureFn rfl, hc, by simp⟩

theorem look_pure (x : α) : LookAt env D (.pure x : P τ ρ Γ α) (pureFns x) := by
  intro pos ctx ins rem r hp hc hr
  simp [pureFns] at hr; subst hr; exact ⟨.pure, hc, by simp⟩

theorem look_unexpected (x : String) :
    LookAt env D (.unexpected x : P τ ρ Γ Unit) (unexpectedFns x) := by
  intro pos ctx ins rem r hp hc hr
  simp [unexpectedFns] at hr; subst hr
  exact ErrLook.here .unexpected (by simp)

theorem look_eof : LookAt env D (.eof : P τ ρ Γ Unit) eofFns := by
  intro pos ctx ins rem r hp hc hr
  simp only [eofFns, eofFn] at hr
  split at hr
  · next he => simp at hr; subst hr; subst he; exact ⟨.eof, hc, by simp⟩
  · next hne =>
    have hst : LooksAt env D (.eof : P τ ρ Γ Unit) ctx.mark pos [] (some "end of file") pos :=
      .eof hne
    split at hr
    · simp at hr; subst hr; exact ErrLook.here hst (by simp)
    · simp at hr; subst hr
      refine ⟨ErrLook.here hst (by simp), ?_⟩
      simp only [List.mem_singleton]
      rintro _ rfl
      refine ⟨_, .one (.eofSkip (by omega)) (hc.stay hp (Nat.le_refl _)) rfl rfl
        (hc.report (Nat.le_refl _) hp) rfl rfl ⟨_, hst⟩ (by simpa using hst) rfl fun hn => ?_⟩
      have := hn (Step.skip pos (s.length - pos)).edit (by simp) (s.length - pos) rfl
      simp only [Step.skip] at this
      omega

theorem look_satisfy (test : τ → Except Exn Bool) :
    LookAt env D (.satisfy test : P τ ρ Γ τ) (satisfyFns test) := by
  intro pos ctx ins rem r hp hc hr
  simp only [satisfyFns, satisfyFn, Out.bind_def, Out.bind_eq_ret, Out.ofExcept_eq_ret] at hr
  obtain ⟨x, h1, h2⟩ := hr
  cases x with
  | some t =>
    have := testAt_lt h1
    have h3 := testAt_some h1
    simp at h2; subst h2
    exact ⟨.satisfy h3.1 h3.2, hc.stay (by simp) (by simp only; omega), by simp⟩
  | none =>
    have hst := looks_satisfy (env := env) (D := D) (m := ctx.mark) h1
    cases rem with
    | none => simp at h2; subst h2; exact ErrLook.here hst (by simp)
    | some rem =>
      simp only [Out.bind_eq_ret, Out.ofExcept_eq_ret] at h2
      obtain ⟨y, h3, h4⟩ := h2
      cases y with
      | none => simp at h4; subst h4; exact ErrLook.here hst (by simp)
      | some y =>
        obtain ⟨cur, t⟩ := y
        obtain ⟨h5, h6, h7, _⟩ := scan_some h3
        have h8 := testAt_some h7
        simp at h4; subst h4
        refine ⟨ErrLook.here hst (by simp), ?_⟩
        simp only [List.mem_singleton]
        rintro _ rfl
        exact ⟨_, .skip (.satisfySkip (by omega) h8.1 h8.2) hp hc ⟨_, hst⟩ (by simp)⟩

theorem look_sym (x : τ) (l : String) : LookAt env D (.sym x l : P τ ρ Γ τ) (symFns x l) := by
  intro pos ctx ins rem r hp hc hr
  simp only [symFns, symFn] at hr
  split at hr
  · next t ht =>
    have := symAt_lt ht
    have h3 := symAt_some ht
    simp at hr; subst hr
    exact ⟨.sym h3.1 h3.2, hc.stay (by simp) (by simp only; omega), by simp⟩
  · next hno =>
    have hst := looks_sym (env := env) (D := D) (m := ctx.mark) (l := l) hno
    have he : ∀ {c}, ErrLook env D (.sym x l : P τ ρ Γ τ) ctx.mark pos [l] c :=
      ErrLook.here hst (by simp)
    split at hr
    · simp at hr; subst hr; exact he
    · next rem =>
      simp only [Out.bind_def, Out.bind_eq_ret, Out.ofExcept_eq_ret] at hr
      obtain ⟨y, h3, h4⟩ := hr
      have hreps : ∀ p ∈ (if rem ≠ 0 then
          [makeInsert rem x pos ctx (ctx.getLoc s pos) l [l]] else []),
          ∃ es, RepLook env D (.sym x l : P τ ρ Γ τ) ctx.mark pos (some rem) p es := by
        split
        · simp only [List.mem_singleton]; rintro _ rfl
          exact ⟨_, .insert .symInsert hp hc ⟨_, hst⟩ (by simpa using hst)⟩
        · simp
      cases y with
      | none => simp only [Out.ret.injEq] at h4; subst h4; exact ⟨he, hreps⟩
      | some y =>
        obtain ⟨cur, t⟩ := y
        obtain ⟨h5, h6, h7, _⟩ := scan_some h3
        simp only [Except.ok.injEq] at h7
        have h8 := symAt_some h7
        simp only [Out.ret.injEq] at h4; subst h4
        refine ⟨he, ?_⟩
        intro p hm
        rcases List.mem_append.1 hm with hm | hm
        · exact hreps p hm
        · simp only [List.mem_singleton] at hm; subst hm
          exact ⟨_, .skip (.symSkip (by omega) h8.1 h8.2) hp hc ⟨_, hst⟩ (by simpa using hst)⟩

theorem look_literal (x : List τ) (ss : String) (hx : x ≠ []) :
    LookAt env D (.literal x ss hx : P τ ρ Γ (List τ)) (literalFns x ss) := by
  have hlen : 0 < x.length := List.length_pos_iff.2 hx
  intro pos ctx ins rem r hp hc hr
  simp only [literalFns, literalFn] at hr
  split at hr
  · next ht =>
    have := startsWith_le hx ht
    simp at hr; subst hr
    exact ⟨.literal ht, hc.updateLoc (by omega) this, by simp⟩
  · next hno =>
    have hst := looks_literal (env := env) (D := D) (m := ctx.mark) (ss := ss) (hx := hx) hno
    have he : ∀ {c}, ErrLook env D (.literal x ss hx : P τ ρ Γ (List τ)) ctx.mark pos [ss] c :=
      ErrLook.here hst (by simp)
    split at hr
    · simp at hr; subst hr; exact he
    · next rem =>
      simp only [Out.bind_def, Out.bind_eq_ret, Out.ofExcept_eq_ret] at hr
      obtain ⟨y, h3, h4⟩ := hr
      have hreps : ∀ p ∈ (if rem ≠ 0 then
          [makeInsert rem x pos ctx (ctx.getLoc s pos) ss [ss]] else []),
          ∃ es, RepLook env D (.literal x ss hx : P τ ρ Γ (List τ)) ctx.mark pos (some rem) p
            es := by
        split
        · simp only [List.mem_singleton]; rintro _ rfl
          exact ⟨_, .insert .literalInsert hp hc ⟨_, hst⟩ (by simpa using hst)⟩
        · simp
      cases y with
      | none => simp only [Out.ret.injEq] at h4; subst h4; exact ⟨he, hreps⟩
      | some y =>
        obtain ⟨cur, t⟩ := y
        obtain ⟨h5, h6, h7, _⟩ := scan_some h3
        simp only [Out.ret.injEq] at h4; subst h4
        have hsw : startsWith x s cur = true := by
          by_cases h : startsWith x s cur = true
          · exact h
          · simp [h] at h7
        refine ⟨he, ?_⟩
        intro p hm
        rcases List.mem_append.1 hm with hm | hm
        · exact hreps p hm
        · simp only [List.mem_singleton] at hm; subst hm
          exact ⟨_, .skip (.literalSkip (by omega) hsw) hp hc ⟨_, hst⟩ (by simpa using hst)⟩

theorem look_regexp (m : Matcher τ β) :
    LookAt env D (.regexp m : P τ ρ Γ β) (regexpFns m) := by
  intro pos ctx ins rem r hp hc hr
  simp only [regexpFns, regexpFn, Out.bind_def, Out.bind_eq_ret, Out.ofExcept_eq_ret] at hr
  obtain ⟨x, h1, h2⟩ := hr
  cases x with
  | some t =>
    obtain ⟨e, v⟩ := t
    obtain ⟨h3, h4⟩ := m.at_bounds hp h1
    simp at h2; subst h2
    exact ⟨.regexp (Matcher.at_some h1), hc.updateLoc h3 h4, by simp⟩
  | none =>
    have hst := looks_regexp (env := env) (D := D) (m := ctx.mark) h1
    cases rem with
    | none => simp at h2; subst h2; exact ErrLook.here hst (by simp)
    | some rem =>
      simp only [Out.bind_eq_ret, Out.ofExcept_eq_ret] at h2
      obtain ⟨y, h3, h4⟩ := h2
      cases y with
      | none => simp at h4; subst h4; exact ErrLook.here hst (by simp)
      | some y =>
        obtain ⟨cur, e, v⟩ := y
        obtain ⟨h5, h6, h7, _⟩ := scan_some h3
        obtain ⟨h8, h9⟩ := m.at_bounds (by omega) h7
        simp at h4; subst h4
        refine ⟨ErrLook.here hst (by simp), ?_⟩
        simp only [List.mem_singleton]
        rintro _ rfl
        exact ⟨_, .skip (.regexpSkip (by omega) (by omega) (Matcher.at_some h7)) hp hc
          ⟨_, hst⟩ (by simp)⟩

/-! ### The remaining combinators -/

theorem look_many {p : P τ ρ Γ α} {f : ParseFns τ α} (hf' : Framed f)
    (hfm : ∀ fuel, Framed (manyFns fuel f)) (hf : LookAt env D p f) (fuel : Nat) :
    LookAt env D (.many p) (manyFns fuel f) := by
  intro pos ctx ins rem r hp hc hr
  exact look_manyLoop hf' hfm hf ins fuel pos ctx.mark pos ctx false [] r rem (Nat.le_refl _) hp hc
    rfl .nil hr

theorem Looks.inv_fmap {col} {p : P τ ρ Γ α} {fn : α → Except Exn β} {m i es l q}
    (h : Looks env s col (.fmap p fn) m i es l q) : Looks env s col p m i es l q := by
  cases h with
  | fmap h => exact h

theorem Looks.inv_alt {col} {p p' : P τ ρ Γ α} {m i es l q}
    (h : Looks env s col (.alt p p') m i es l q) :
    Looks env s col p m i es l q ∨ Looks env s col p' m i es l q := by
  cases h with
  | altL h => exact .inl h
  | altR h => exact .inr h

theorem Looks.inv_pure {col} {x : α} {m i es l q}
    (h : Looks env s col (.pure x) m i es l q) : False := by
  cases h

theorem Looks.toSeqWith {col} {p : P τ ρ Γ α} {p' : P τ ρ Γ β} {merge : α → β → γ} {m i es l q}
    (h : Looks env s col (.bind p fun a => .fmap p' fun b => .ok (merge a b)) m i es l q) :
    Looks env s col (.seqWith p p' merge) m i es l q := by
  cases h with
  | bindL h => exact .seqL h
  | bindR h1 h2 => exact .seqR h1 h2.inv_fmap

theorem Looks.toMaybe {col} {p : P τ ρ Γ α} {m i es l q}
    (h : Looks env s col (.alt (.fmap p fun a => .ok (some a)) (.pure none)) m i es l q) :
    Looks env s col (.maybe p) m i es l q := by
  rcases h.inv_alt with h | h
  · exact .maybe h.inv_fmap
  · exact h.inv_pure.elim

theorem Looks.inv_recoverWithFn {col} {p : P τ ρ Γ α} {fn : List τ → Nat → Except Exn α}
    {lbl : α → String} {m i es l q}
    (h : Looks env s col (.recoverWithFn p fn lbl) m i es l q) :
    Looks env s col p m i es l q := by
  cases h with
  | recoverWithFn h => exact h

theorem look_maybe {p : P τ ρ Γ α} {f : ParseFns τ α}
    (hf : LookAt env D p f) : LookAt env D (.maybe p) (maybeFns f) := by
  rw [maybeFns_eq]
  have h2 : Sim (pureFns none) ∧ Framed (pureFns (none : Option α)) :=
    (frame_closed (τ := τ)).pureFn (.ok none)
  exact (look_alt h2.2 (look_fmap (fun a => .ok (some a)) hf)
    (look_pure none)).transfer (fun m i es v j h => h.toMaybe) fun m i es l q h => h.toMaybe

theorem look_label {p : P τ ρ Γ α} {f : ParseFns τ α} (x : String) (hf' : Framed f)
    (hf : LookAt env D p f) : LookAt env D (.label p x) (labelFns f x) := by
  intro pos ctx ins rem r hp hc hr
  simp only [labelFns, Out.bind_def, Out.bind_eq_ret, Out.pure_def, Out.ret.injEq] at hr
  obtain ⟨y, h1, rfl⟩ := hr
  have hy := hf pos ctx ins rem y hp hc h1
  have hfy := hf' s pos ctx ins rem y hp h1
  have err : ∀ {ex : List String} {c : Bool}, ErrLook env D p ctx.mark pos ex c →
      c = false → ErrLook env D (.label p x) ctx.mark pos [x] false := by
    intro ex c h hc' _
    obtain ⟨⟨l, h1⟩, _⟩ := h hc'
    exact ⟨⟨some x, .labelHere h1⟩, by simpa using Looks.labelHere h1⟩
  cases y with
  | ok o =>
    have hy : OkLook .. := hy
    have hfy : OkFrame .. := hfy
    refine ⟨by simpa using Der.label hy.der, by simpa using hy.ctx, fun l hm => ?_⟩
    rw [Ok.setExpected_pos]
    have hcons := hfy.consumed
    have hlo := hfy.lo
    unfold Ok.setExpected at hm
    split at hm
    · next hcc =>
      rw [hcc] at hcons
      have : pos < o.pos := by simpa using hcons.symm
      exact .labelLater (hy.look l hm) (.inr (by omega))
    · next hcc =>
      simp only [Bool.not_eq_true] at hcc
      rw [hcc] at hcons
      have hpos : o.pos = pos := by simp at hcons; omega
      simp at hm; subst hm
      have hd := hy.der
      rw [hpos] at hd ⊢
      exact .labelEmpty hd
  | error e =>
    have hy : ErrLook env D p ctx.mark pos e.expected e.consumed := hy
    simp only [ResLook, Result.setExpected, Err.setExpected]
    by_cases hcc : e.consumed = true
    · simp only [hcc, if_true]; intro h; simp at h
    · simp only [Bool.not_eq_true] at hcc
      simp only [hcc, Bool.false_eq_true, if_false]
      exact err hy hcc
  | recovered rr =>
    refine ⟨?_, ?_⟩
    · simp only [Recovered.setExpected]
      by_cases hcc : rr.consumed = true
      · intro h; simp [hcc] at h
      · simp only [Bool.not_eq_true] at hcc
        simp only [hcc, Bool.false_eq_true, if_false]
        exact err hy.1 hcc
    · simp only [Recovered.setExpected, List.mem_map]
      rintro _ ⟨z, hz, rfl⟩
      obtain ⟨es, hs⟩ := hy.2 z hz
      exact ⟨es, hs.set (fun _ _ _ h => .label h) (fun _ _ _ h h' => .labelLater h h')
        (fun l h => ⟨some x, .labelHere h⟩) fun ⟨l, h⟩ => by simpa using Looks.labelHere h⟩

theorem look_recover {p : P τ ρ Γ α} {f : ParseFns τ α}
    (hf : LookAt env D p f) : LookAt env D (.recover p) (recoverFns f) := by
  intro pos ctx ins rem r hp hc hr
  simp only [recoverFns, recoverFn, Out.bind_def, Out.bind_eq_ret] at hr
  obtain ⟨y, h1, h2⟩ := hr
  have h := hf pos ctx ins rem y hp hc h1
  have err : ∀ {ex : List String} {c : Bool}, ErrLook env D p ctx.mark pos ex c →
      ErrLook env D (.recover p) ctx.mark pos ex c := by
    intro ex c h hc'
    obtain ⟨⟨l, h1⟩, h2⟩ := h hc'
    exact ⟨⟨l, .recover h1⟩, fun l hm => .recover (h2 l hm)⟩
  cases y with
  | ok o =>
    have h : OkLook .. := h
    simp at h2; subst h2; exact ⟨.recover h.der, h.ctx, fun l hm => .recover (h.look l hm)⟩
  | error e => simp at h2; subst h2; exact err h
  | recovered rr =>
    simp at h2; subst h2
    refine ⟨err h.1, ?_⟩
    simp only [List.mem_map]
    rintro _ ⟨x, hx, rfl⟩
    obtain ⟨es, hs⟩ := h.2 x hx
    refine ⟨es.map Step.asked, .recover hs.der, by rw [edits_asked]; exact hs.ops, hs.ctx,
      by simpa using hs.ne, ?_, fun hn => ?_, fun h0 e he => ?_⟩
    · intro i e op g1 g2 g3
      simp only [List.getElem?_map, Option.map_eq_some_iff] at g1
      obtain ⟨e', g1, rfl⟩ := g1
      rw [← List.map_take, edits_asked] at g3
      obtain ⟨g4, g5, g6⟩ := hs.look i e' op g1 g2 g3
      rw [← List.map_take]
      exact ⟨fun l hm => .recover (g4 l hm), g5, fun g0 => (g6 g0).imp fun l h => .recover h⟩
    · rw [edits_asked] at hn
      exact ⟨(hs.rest hn).1, fun l hm => .recover ((hs.rest hn).2 l hm)⟩
    · simp only [List.getElem?_map, Option.map_eq_some_iff] at he
      obtain ⟨e', he, rfl⟩ := he
      exact hs.far h0 e' he

theorem look_recoverWithFn {p : P τ ρ Γ α} {f : ParseFns τ α}
    (fn : List τ → Nat → Except Exn α) (lbl : α → String)
    (hf : LookAt env D p f) :
    LookAt env D (.recoverWithFn p fn lbl) (recoverWithFnFns f fn lbl) := by
  have ha : LookAt env D (.recoverWithFn p fn lbl) f :=
    hf.transfer (fun _ _ _ _ _ h => .recoverWithFn h) fun _ _ _ _ _ h => .recoverWithFn h
  intro pos ctx ins rem r hp hc hr
  simp only [recoverWithFnFns, recoverWithFnFn] at hr
  cases rem with
  | none => exact ha pos ctx ins none r hp hc hr
  | some rem =>
    have hins : ∀ x ex, fn s pos = .ok x →
        ErrLook env D (.recoverWithFn p fn lbl) ctx.mark pos ex false →
        RepLook env D (.recoverWithFn p fn lbl) ctx.mark pos (some rem)
          (makeUserInsert rem x pos ctx (ctx.getLoc s pos) (lbl x) ex)
          [.userInsert pos (lbl x)] := fun x ex hx he =>
      .one (.recoverWithFnInsert hx) hc rfl rfl (hc.report (Nat.le_refl _) hp) rfl rfl
        (he rfl).1 (he rfl).2 rfl fun _ => rfl
    simp only [Out.bind_def, Out.bind_eq_ret] at hr
    obtain ⟨y, h1, h2⟩ := hr
    have h := ha pos ctx ins _ y hp hc h1
    cases y with
    | ok o => simp at h2; subst h2; exact h
    | error e =>
      have h : ErrLook env D (.recoverWithFn p fn lbl) ctx.mark pos e.expected e.consumed := h
      simp only at h2
      split at h2
      · simp at h2; subst h2; exact h
      · next hcc =>
        simp only [Bool.not_eq_true] at hcc
        split at h2
        · simp only [Out.bind_eq_ret, Out.ofExcept_eq_ret, Out.ret.injEq] at h2
          obtain ⟨x, h3, rfl⟩ := h2
          refine ⟨fun _ => ⟨(h hcc).1, by simp⟩, ?_⟩
          simp only [List.mem_singleton]
          rintro _ rfl
          exact ⟨_, hins x _ h3 (by rw [hcc] at h; exact h)⟩
        · simp at h2; subst h2; exact h
    | recovered rr =>
      simp only at h2
      split at h2
      · simp at h2; subst h2; exact h
      · next hcc =>
        simp only [Bool.not_eq_true] at hcc
        split at h2
        · simp only [Out.bind_eq_ret, Out.ofExcept_eq_ret, Out.ret.injEq] at h2
          obtain ⟨x, h3, rfl⟩ := h2
          have he := h.1
          rw [hcc] at he
          refine ⟨he, ?_⟩
          intro y hy
          rcases List.mem_cons.1 hy with rfl | hy
          · exact ⟨_, hins x _ h3 he⟩
          · exact h.2 y hy
        · simp at h2; subst h2; exact h

/-- Running `p` in another context, then restoring. -/
theorem ResLook.setCtx {p p' : P τ ρ Γ α} {pos m m' : Nat} {rem : Option Int} {c2 : Ctx τ}
    {r : Result τ α} (hp : pos ≤ s.length)
    (hd : ∀ es v j, Der env s D.col p m pos es v j → Der env s D.col p' m' pos es v j)
    (hl : ∀ es l q, Looks env s D.col p m pos es l q → Looks env s D.col p' m' pos es l q)
    (hc : CtxOK D c2 pos) (h : ResLook env D p m pos rem r) :
    ResLook env D p' m' pos rem (r.setCtx c2) := by
  have h := h.mono hd hl
  cases r with
  | ok r =>
    have h : OkLook .. := h
    have ho := der_inOrder h.der hp
    exact ⟨h.der, hc.stay ho.1.le ho.2, h.look⟩
  | error e => exact h
  | recovered r =>
    refine ⟨h.1, ?_⟩
    simp only [List.mem_map]
    rintro _ ⟨x, hx, rfl⟩
    obtain ⟨es, h'⟩ := h.2 x hx
    have ho := der_inOrder h'.der hp
    exact ⟨es, h'.der, h'.ops, hc.stay ho.1.le ho.2, h'.ne, h'.look, h'.rest, h'.far⟩

theorem look_block {p : P τ ρ Γ α} {f : ParseFns τ α} (hl : D.layout)
    (hf : LookAt env D p f) : LookAt env D (.block p) (blockFns f) := by
  intro pos ctx ins rem r hp hc hr
  simp only [blockFns, Out.bind_def, Out.bind_eq_ret, Out.pure_def, Out.ret.injEq] at hr
  obtain ⟨y, h1, rfl⟩ := hr
  have hu := hc.updateLoc (Nat.le_refl _) hp
  exact (hf pos _ ins rem y hp (hu.setMark _) h1).setCtx hp
    (fun es v j d => .block (hc.here hp hl).2 d) (fun es l q d => .block (hc.here hp hl).2 d) hu

theorem look_indented {p : P τ ρ Γ α} {f : ParseFns τ α} (delta : Int) (hl : D.layout)
    (hf : LookAt env D p f) : LookAt env D (.indented delta p) (indentedFns delta f) := by
  intro pos ctx ins rem r hp hc hr
  have hu := hc.updateLoc (Nat.le_refl _) hp
  have hh := hc.here hp hl
  simp only [indentedFns] at hr
  split at hr
  · next heq =>
    simp only [Out.bind_def, Out.bind_eq_ret, Out.pure_def, Out.ret.injEq] at hr
    obtain ⟨y, h1, rfl⟩ := hr
    rw [updateLoc_mark] at heq
    exact (hf pos _ ins rem y hp (hu.setMark _) h1).setCtx hp
      (fun es v j d => .indented hh.2 heq d) (fun es l q d => .indented hh.2 heq d) hu
  · next hne =>
    rw [updateLoc_mark] at hne
    simp at hr; subst hr
    exact ErrLook.here (.notIndented hh.2 hne) (by simp)

theorem look_aligned {p : P τ ρ Γ α} {f : ParseFns τ α} (hl : D.layout)
    (hf : LookAt env D p f) : LookAt env D (.aligned p) (alignedFns f) := by
  intro pos ctx ins rem r hp hc hr
  have hu := hc.updateLoc (Nat.le_refl _) hp
  have hh := hc.here hp hl
  simp only [alignedFns] at hr
  split at hr
  · next heq =>
    have h := hf pos _ ins rem r hp hu hr
    rw [updateLoc_mark] at heq
    rw [updateLoc_mark] at h
    exact h.mono (fun es v j d => .aligned (heq ▸ hh.2) d) fun es l q d => .aligned (heq ▸ hh.2) d
  · next hne =>
    rw [updateLoc_mark] at hne
    simp at hr; subst hr
    exact ErrLook.here (.notAligned hh.2 fun h => hne h.symm) (by simp)

/-! ### The induction -/

/-- What the induction carries. -/
structure LookQ (env : Env τ ρ Γ) (D : LocDisc s) (p : P τ ρ Γ α) (f : ParseFns τ α) : Prop where
  sim : Sim f
  frame : Framed f
  look : (D.layout ∨ p.All P.notLayout) → p.All P.notAttempt → LookAt env D p f

theorem look_closed (env : Env τ ρ Γ) (D : LocDisc s)
    (henv : D.layout ∨ ∀ i q, env i = some q → q.All P.notLayout)
    (henv' : ∀ i q, env i = some q → q.All P.notAttempt) :
    Closed env (fun {_} p f => LookQ env D p f) := by
  have fc := frame_closed.closed (τ := τ) env
  have fd : ∀ {α : Type} {p : P τ ρ Γ α} {f : ParseFns τ α}, (Sim f ∧ Framed f) →
      ((D.layout ∨ p.All P.notLayout) → p.All P.notAttempt → LookAt env D p f) →
      LookQ env D p f := fun h h' => ⟨h.1, h.2, h'⟩
  exact {
    pure := fun x => fd (fc.pure x) fun _ _ => look_pure x
    pureFn := fun x => fd (fc.pureFn x) fun _ _ => look_pureFn x
    unexpected := fun x => fd (fc.unexpected x) fun _ _ => look_unexpected x
    eof := fd fc.eof fun _ _ => look_eof
    satisfy := fun t => fd (fc.satisfy t) fun _ _ => look_satisfy t
    sym := fun x l => fd (fc.sym x l) fun _ _ => look_sym x l
    literal := fun x ss h => fd (fc.literal x ss h) fun _ _ => look_literal x ss h
    regexp := fun m => fd (fc.regexp m) fun _ _ => look_regexp m
    fmap := fun p f fn h => fd (fc.fmap p f fn ⟨h.sim, h.frame⟩) fun hl ha =>
      look_fmap fn (h.look (hl.imp_right fun h => h.2) ha.2)
    alt := fun p q f g hf hg =>
      fd (fc.alt p q f g ⟨hf.sim, hf.frame⟩ ⟨hg.sim, hg.frame⟩) fun hl ha =>
        look_alt hg.frame (hf.look (hl.imp_right fun h => h.2.1) ha.2.1)
          (hg.look (hl.imp_right fun h => h.2.2) ha.2.2)
    bind := fun p f k g hf hg =>
      fd (fc.bind p f k g ⟨hf.sim, hf.frame⟩ fun a => ⟨(hg a).sim, (hg a).frame⟩) fun hl ha =>
        look_bind hf.frame (hf.look (hl.imp_right fun h => h.2.1) ha.2.1)
          (fun a => (hg a).frame)
          fun a => (hg a).look (hl.imp_right fun h => h.2.2 a) (ha.2.2 a)
    seqWith := fun p f q g merge hf hg =>
      fd (fc.seqWith p f q g merge ⟨hf.sim, hf.frame⟩ ⟨hg.sim, hg.frame⟩) fun hl ha => by
        rw [seqFns_eq]
        refine LookAt.transfer (p := .bind p fun a => .fmap q fun b => .ok (merge a b))
          (look_bind hf.frame (hf.look (hl.imp_right fun h => h.2.1) ha.2.1)
            (fun a => (frame_closed.fmap _ _ ⟨hg.sim, hg.frame⟩).2)
            fun a => look_fmap _ (hg.look (hl.imp_right fun h => h.2.2) ha.2.2))
          (fun m i es v j h => h.toSeqWith) fun m i es l q h => h.toSeqWith
    maybe := fun p f h => fd (fc.maybe p f ⟨h.sim, h.frame⟩) fun hl ha => by
      exact look_maybe (h.look (hl.imp_right fun h => h.2) ha.2)
    many := fun p f fuel h => fd (fc.many p f fuel ⟨h.sim, h.frame⟩) fun hl ha =>
      look_many h.frame (fun n => (fc.many p f n ⟨h.sim, h.frame⟩).2)
        (h.look (hl.imp_right fun h => h.2) ha.2) fuel
    attempt := fun p f h => fd (fc.attempt p f ⟨h.sim, h.frame⟩) fun hl ha => ha.1.elim
    label := fun p f x h => fd (fc.label p f x ⟨h.sim, h.frame⟩) fun hl ha =>
      look_label x h.frame (h.look (hl.imp_right fun h => h.2) ha.2)
    recover := fun p f h => fd (fc.recover p f ⟨h.sim, h.frame⟩) fun hl ha =>
      look_recover (h.look (hl.imp_right fun h => h.2) ha.2)
    recoverWith := fun p f x vs h => fd (fc.recoverWith p f x vs ⟨h.sim, h.frame⟩) fun hl ha => by
      rw [recoverWithFns_eq]
      refine (look_recoverWithFn _ _ (h.look (hl.imp_right fun h => h.2) ha.2)).transfer
        (fun m i es v j h => ?_) fun m i es l q h => .recoverWith h.inv_recoverWithFn
      rcases h.inv_recoverWithFn with h | ⟨y, hy, rfl, rfl, rfl⟩
      · exact .recoverWith h
      · cases hy; exact .recoverWithInsert
    recoverWithFn := fun p f fn lbl h =>
      fd (fc.recoverWithFn p f fn lbl ⟨h.sim, h.frame⟩) fun hl ha =>
        look_recoverWithFn fn lbl (h.look (hl.imp_right fun h => h.2) ha.2)
    block := fun p f h => fd (fc.block p f ⟨h.sim, h.frame⟩) fun hl ha => by
      rcases hl with hl | hl
      · exact look_block hl (h.look (.inl hl) ha.2)
      · exact hl.1.elim
    aligned := fun p f h => fd (fc.aligned p f ⟨h.sim, h.frame⟩) fun hl ha => by
      rcases hl with hl | hl
      · exact look_aligned hl (h.look (.inl hl) ha.2)
      · exact hl.1.elim
    indented := fun p f d h => fd (fc.indented p f d ⟨h.sim, h.frame⟩) fun hl ha => by
      rcases hl with hl | hl
      · exact look_indented d hl (h.look (.inl hl) ha.2)
      · exact hl.1.elim
    refDiverge := fun i => fd (fc.refDiverge i) fun _ _ => by
      intro pos ctx ins rem r hp hc hr; simp [divergeFns] at hr
    refUndefined := fun i h => fd (fc.refUndefined i h) fun _ _ => by
      intro pos ctx ins rem r hp hc hr; simp [undefinedFns] at hr
    refDefined := fun i p f he h => ⟨h.sim, h.frame, fun _ _ =>
      (h.look (henv.imp_right fun h => h i p he) (henv' i p he)).transfer
        (fun _ _ _ _ _ d => .ref he d) fun _ _ _ _ _ d => .ref he d⟩ }

/-- Every parser without `attempt`. -/
theorem look_denote (env : Env τ ρ Γ) (D : LocDisc s) (p : P τ ρ Γ α)
    (h : D.layout ∨ Everywhere env P.notLayout p) (ha : Everywhere env P.notAttempt p)
    (fuel : Nat) : LookAt env D p (denote env fuel p) :=
  ((look_closed env D (h.imp_right fun h => h.2) ha.2).denote fuel p).look
    (h.imp_right fun h => h.1) ha.1

end

end Reparsec
