import Verif.Lemmas.EffectsRecovery

/-!
# With side effects, the recovering mode shows exactly the recovering evaluation relation
-/

namespace Reparsec

namespace Eff

variable {σ τ ρ : Type} {Γ : ρ → Type} {α β γ : Type} {s : List τ} {D : LocDisc s}

section
variable [BEq τ] {env : Env σ τ ρ Γ} {k : Int}

/-- Every run that ends shows a finding of the relation. -/
def RecAt (env : Env σ τ ρ Γ) (D : LocDisc s) (k : Int) (p : P σ τ ρ Γ α) (f : ParseFns σ τ α) :
    Prop :=
  ∀ i ctx b w, i ≤ s.length → CtxOK D ctx i → f.fn s i ctx k b w ≠ .diverge →
    ∃ o w', Rec env s D.col k p ctx.mark i b w o w' ∧ Found D i ctx b w' o (f.fn s i ctx k b w)

/-- The primitives without callbacks do the same in every world. -/
theorem rec_prim {col : Nat → Nat → Prop} {p : Reparsec.P τ Empty (fun _ => Unit) α} {m i : Nat}
    {b : Option Int} {o : Finding α} (w : World σ) (h : Reparsec.Rec env0 s col k p m i b o) :
    match p with
    | .pure x => Rec env s col k (.pure x) m i b w o w
    | .unexpected x => Rec env s col k (.unexpected x) m i b w o w
    | .eof => Rec env s col k .eof m i b w o w
    | .sym x l => Rec env s col k (.sym x l) m i b w o w
    | .literal x ss h => Rec env s col k (.literal x ss h) m i b w o w
    | .regexp mt => Rec env s col k (.regexp mt) m i b w o w
    | _ => True := by
  induction h with
  | pure => exact .pure
  | unexpected => exact .unexpected
  | eof => exact .eof
  | eofNot h => exact .eofNot h
  | eofSkip h => exact .eofSkip h
  | sym h h' => exact .sym h h'
  | symNot h => exact .symNot h
  | symSkip h1 h2 h3 h4 => exact .symSkip h1 h2 h3 h4
  | symNever h => exact .symNever h
  | literal h => exact .literal h
  | literalNot h => exact .literalNot h
  | literalSkip h1 h2 h3 => exact .literalSkip h1 h2 h3
  | literalNever h => exact .literalNever h
  | regexp h => exact .regexp h
  | regexpNot h => exact .regexpNot h
  | regexpRaises h => exact .regexpRaises h
  | regexpSkip h1 h2 h3 h4 => exact .regexpSkip h1 h2 h3 h4
  | regexpNever h1 h2 => exact .regexpNever h1 h2
  | regexpSkipRaises h1 h2 h3 h4 => exact .regexpSkipRaises h1 h2 h3 h4
  | _ => trivial

theorem recAt_lift {p : P σ τ ρ Γ α} {p' : Reparsec.P τ Empty (fun _ => Unit) α}
    {g : Reparsec.ParseFns τ α} (hg : Framed g) (h : Reparsec.RecAt env0 D k p' g)
    (hp : ∀ m i b o w, Reparsec.Rec env0 s D.col k p' m i b o → Rec env s D.col k p m i b w o w) :
    RecAt env D k p (lift g) := by
  intro i ctx b w hi hc hne
  obtain ⟨o, h1, h2⟩ := h i ctx b hi hc fun h => hne (by simp [lift, liftOut, h])
  exact ⟨o, w, hp _ _ _ _ _ h1, found_lift hg hi h2⟩

theorem rec_pureFn (c : Callback σ Unit α) : RecAt env D k (.pureFn c) (pureFnFns c) := by
  intro i ctx b w hi hc hne
  simp only [pureFnFns, Act.bind_apply]
  rcases calls_cases c () w with ⟨b, w', h⟩ | ⟨e, w', h⟩
  · exact ⟨_, _, .pureFn h, by
      rw [h.ok]; exact .mk_accepts rfl rfl rfl hc (OkFrame.stay hi rfl rfl rfl)⟩
  · exact ⟨_, _, .pureFnRaises h, by rw [h.error]; exact .raises⟩

theorem rec_satisfy (c : Callback σ τ Bool) : RecAt env D k (.satisfy c) (satisfyFns c) := by
  intro i ctx b w hi hc _
  cases b with
  | none =>
    cases hs : s[i]? with
    | none => exact ⟨_, _, .satisfyEnd hs, found_satisfy_end hi hc hs⟩
    | some t =>
      rcases calls_cases c t w with ⟨b, w', h⟩ | ⟨e, w', h⟩
      · cases b with
        | true => exact ⟨_, _, .satisfy hs h, found_satisfy hc hs h⟩
        | false => exact ⟨_, _, .satisfyNot hs h, found_satisfy_not hi hc hs h⟩
      · exact ⟨_, _, .satisfyRaises hs h, found_satisfy_raises hs h⟩
  | some r =>
    rcases scan_sound (s := s) c (s.length - i) i (by omega) w with
      ⟨j, t, w1, w2, hj, h1, h2, h3⟩ | ⟨w1, h1⟩ | ⟨j, t, e, w1, w2, hj, h1, h2, h3⟩
    · have := h1.le
      rcases Nat.eq_or_lt_of_le this with rfl | hlt
      · cases h1 with
        | nil => exact ⟨_, _, .satisfy h2 h3, found_satisfy hc h2 h3⟩
        | cons _ _ h => have := h.le; omega
      · have hf := found_satisfy_skip (k := k) (r := r) hi hc hlt h1 h2 h3
        obtain ⟨ws, rfl, rfl, h4⟩ := h1.toWorlds
        exact ⟨_, _, .satisfySkip hlt h4 h2 h3, hf⟩
    · have hf := found_satisfy_never (k := k) (r := r) hi hc h1
      obtain ⟨ws, rfl, rfl, h4⟩ := h1.toWorlds
      exact ⟨_, _, .satisfyNever hi fun n t hn ht =>
        h4 n t hn (List.getElem?_eq_some_iff.1 ht).1 ht, hf⟩
    · have := h1.le
      rcases Nat.eq_or_lt_of_le this with rfl | hlt
      · cases h1 with
        | nil => exact ⟨_, _, .satisfyRaises h2 h3, found_satisfy_raises h2 h3⟩
        | cons _ _ h => have := h.le; omega
      · have hf := found_satisfy_skip_raises (D := D) (ctx := ctx) (k := k) (r := r) hlt h1 h2 h3
        obtain ⟨ws, rfl, rfl, h4⟩ := h1.toWorlds
        exact ⟨_, _, .satisfySkipRaises hlt h4 h2 h3, hf⟩

theorem rec_fmap {p : P σ τ ρ Γ α} {f : ParseFns σ τ α} (c : Callback σ α β)
    (hp : RecAt env D k p f) : RecAt env D k (.fmap p c) (fmapFns f c) := by
  intro i ctx b w hi hc hne
  obtain ⟨o, w1, h1, h2⟩ := hp i ctx b w hi hc fun h => hne (by simp [fmapFns, fmapFn, h])
  cases o with
  | raises e => exact ⟨_, _, .fmapRaised h1, found_fmap_raised h2⟩
  | rejects q x d => exact ⟨_, _, .fmapRejects h1, found_fmap_rejects h2⟩
  | accepts v j x =>
    rcases calls_cases c v w1 with ⟨b, w', h⟩ | ⟨e, w', h⟩
    · exact ⟨_, _, .fmap h1 h, found_fmap h2 h⟩
    · exact ⟨_, _, .fmapRaises h1 h, found_fmap_raises h2 h⟩
  | repairs cs q x d =>
    rcases threads_fmap_sound c cs w1 with ⟨vs, w', h⟩ | ⟨cs', d', ds, vs, e, w2, w3, rfl, h, h'⟩
    · have hf := found_fmap_repairs h2 h
      obtain ⟨ws, rfl, rfl, h3, h4⟩ := h.toWorlds
      exact ⟨_, _, .fmapRepairs h1 h3 h4, hf⟩
    · have hf := found_fmap_repairs_raises h2 h h'
      obtain ⟨ws, rfl, rfl, h3, h4⟩ := h.toWorlds
      exact ⟨_, _, .fmapRepairsRaises h1 h3 h4 h', hf⟩

theorem rec_alt {p q : P σ τ ρ Γ α} {f g : ParseFns σ τ α}
    (hp : RecAt env D k p f) (hq : RecAt env D k q g) : RecAt env D k (.alt p q) (altFns f g) := by
  intro i ctx b w hi hc hne
  obtain ⟨o1, w1, h1, h2⟩ := hp i ctx none w hi hc fun h => hne (by simp [altFns, altFn, h])
  rcases h2.cases_none with ⟨v, j, x, rfl⟩ | hfin | ⟨q1, x1, rfl⟩
  · exact ⟨_, _, .altFirst h1, found_alt_first h2⟩
  · exact ⟨_, _, .altFinal h1 hfin, found_alt_final hfin h2⟩
  obtain ⟨e, he1, he2, he3, he4⟩ := h2.inv_rejects
  have heq := alt_eq_second (g := g) (b := b) he1 he4
  obtain ⟨o2, w2, h3, h4⟩ := hq i ctx none w1 hi hc fun h => hne (by rw [heq]; simp [altSecond, h])
  rcases h4.cases_none with ⟨v, j, x, rfl⟩ | hfin | ⟨q2, x2, rfl⟩
  · exact ⟨_, _, .altSecond h1 h3, found_alt_second h2 h4⟩
  · exact ⟨_, _, .altSecondFinal h1 h3 hfin, found_alt_second_final hfin h2 h4⟩
  cases b with
  | none => exact ⟨_, _, .altNeither h1 h3, found_alt_neither h2 h4⟩
  | some r =>
    obtain ⟨e', he1', he2', he3', he4'⟩ := h4.inv_rejects
    have heq := alt_eq_recover (b := some r) he1 he4 he1' he4'
    obtain ⟨o3, w3, h5, h6⟩ := hp i ctx (some r) w2 hi hc fun h =>
      hne (by rw [heq]; simp [altRecover, h])
    by_cases hcalm : o3.calm
    · obtain ⟨o4, w4, h7, h8⟩ := hq i ctx (some r) w3 hi hc fun h => hne (by
        rw [heq]
        cases hx : f.fn s i ctx k (some r) w2 with
        | diverge => simp [altRecover, hx]
        | raise e w => rw [hx] at h6; cases h6; exact hcalm.elim
        | ret y w => rw [hx] at h6; cases h6; simp [altRecover, hx, h])
      exact ⟨_, _, .altRepair h1 h3 h5 hcalm h7, found_alt_repair h2 h4 h6 hcalm h8⟩
    · cases o3 with
      | raises e => exact ⟨_, _, .altRepairRaises h1 h3 h5, found_alt_repair_raises h2 h4 h6⟩
      | accepts => exact absurd trivial hcalm
      | rejects => exact absurd trivial hcalm
      | repairs => exact absurd trivial hcalm

/-- The function of `bind`: the callback is called and returns a parser. -/
abbrev next {ι : Type} (c : Callback σ α ι) (g : ι → ParseFns σ τ β) (a : α) :
    Act σ (ParseFns σ τ β) := do
  let i ← c.call a
  return g i

omit [BEq τ] in
theorem next_ok {ι : Type} {c : Callback σ α ι} {g : ι → ParseFns σ τ β} {a : α} {v : ι}
    {w w' : World σ} (h : Calls c a w (.ok v) w') : next c g a w = .ret (g v) w' := by
  simp only [next, Act.bind_apply, h.ok]; rfl

omit [BEq τ] in
theorem next_error {ι : Type} {c : Callback σ α ι} {g : ι → ParseFns σ τ β} {a : α} {e : Exn}
    {w w' : World σ} (h : Calls c a w (.error e) w') : next c g a w = .raise e w' := by
  simp only [next, Act.bind_apply, h.error]; rfl

theorem rec_bind_accepts {ι : Type} {p : P σ τ ρ Γ α} {c : Callback σ α ι} {g : ι → P σ τ ρ Γ β}
    {f : ParseFns σ τ α} {h : ι → ParseFns σ τ β} (hq : ∀ a, RecAt env D k (g a) (h a))
    {i : Nat} {ctx : Ctx τ} {b : Option Int} {w w1 : World σ} {v : α} {j : Nat} {x : List String}
    (h1 : Rec env s D.col k p ctx.mark i b w (.accepts v j x) w1)
    (h2 : Found D i ctx b w1 (.accepts v j x) (f.fn s i ctx k b w))
    (hne : (bindFns f (next c h)).fn s i ctx k b w ≠ .diverge) :
    ∃ o w', Rec env s D.col k (.bind p c g) ctx.mark i b w o w' ∧
      Found D i ctx b w' o ((bindFns f (next c h)).fn s i ctx k b w) := by
  obtain ⟨r, h3, rfl, rfl, rfl, h4, hfr⟩ := h2.inv_accepts
  rcases calls_cases c r.value w1 with ⟨v, w2, hv⟩ | ⟨e, w2, hv⟩
  · obtain ⟨o, w3, h5, h6⟩ := hq v r.pos r.ctx (if i < r.pos then some k else b) w2 hfr.hi h4
      fun h' => hne (by
        simp only [bindFns, bindFn, Act.bind_apply, h3, Run.bind_ret, hv.ok, Act.pure_apply,
          budget_eq hfr, h']
        rfl)
    rw [hfr.ctx.mark] at h5
    exact ⟨_, _, .bind h1 hv h5, found_bind hfr h3 (next_ok hv) h6⟩
  · exact ⟨_, _, .bindRaises h1 hv, found_bind_raises h3 (next_error hv)⟩

theorem rec_bind {ι : Type} {p : P σ τ ρ Γ α} {c : Callback σ α ι} {g : ι → P σ τ ρ Γ β}
    {f : ParseFns σ τ α} {h : ι → ParseFns σ τ β} (hp : RecAt env D k p f)
    (hq : ∀ a, RecAt env D k (g a) (h a)) :
    RecAt env D k (.bind p c g) (bindFns f (next c h)) := by
  intro i ctx b w hi hc hne
  obtain ⟨o, w1, h1, h2⟩ := hp i ctx b w hi hc fun h => hne (by simp [bindFns, bindFn, h])
  cases o with
  | raises e => exact ⟨_, _, .bindRaised h1, found_bind_raised h2⟩
  | rejects q x e => exact ⟨_, _, .bindRejects h1, found_bind_rejects h2⟩
  | accepts v j x => exact rec_bind_accepts hq h1 h2 hne
  | repairs cs q x e =>
    obtain ⟨r, h3, h4, rfl, rfl, h5, hfr⟩ := h2.inv_repairs
    have heq := bind_eq_repairs (g := next c h) h3
    rw [heq] at hne ⊢
    rcases threads_contReps_sound (k := k) (w := w1) (merge := fun _ (v : β) => v) (b' := some)
        (K := fun v p' ctx x => (bindFns (lift (Reparsec.pureFns v)) (next c h)).fn s p' ctx k (some x))
        (R := fun d w o w' => Rec env s D.col k (.bind (.pure d.value) c g) ctx.mark d.stop
          (some d.left) w o w') h5
        (fun d y w hy hd hn => by
          have hy' := hfr.reps y hy
          have h7 : Found D y.pos y.ctx (some y.ins) w (.accepts y.value y.pos [])
              ((lift (Reparsec.pureFns y.value) : ParseFns σ τ α).fn s y.pos y.ctx k
                (some y.ins) w) :=
            .mk_accepts rfl rfl rfl hd.ctx (OkFrame.stay hy'.hi rfl rfl rfl)
          obtain ⟨o, w', h8, h9⟩ := rec_bind_accepts (p := .pure y.value) hq .pure h7 hn
          rw [hy'.ctx.mark] at h8
          rw [hd.value, hd.stop, hd.left]
          exact ⟨o, w', h8, h9⟩)
        (fun h => hne (by simp [continueParse, h])) with
      ⟨os, w2, h6, -, ts, h7, h8, h9⟩ | ⟨cs', d, ds, os, e, w2, w3, rfl, h6, h7, h8⟩
    · have hcalm := h6.all
      obtain ⟨ws, rfl, rfl, h10, h11⟩ := h6.toWorlds
      exact ⟨_, _, .bindRepairs h1 h10 (fun n d o hd ho => (h11 n d o hd ho).1) hcalm,
        found_continue h7 h8 h4 rfl rfl hfr (h9 _ _ _ hfr.reps)⟩
    · have hcalm := h6.all
      obtain ⟨ws, rfl, rfl, h10, h11⟩ := h6.toWorlds
      exact ⟨_, _, .bindRepairsRaises h1 h10 (fun n d o hd ho => (h11 n d o hd ho).1) hcalm h7,
        found_continue_raises h8⟩

theorem rec_seq {p : P σ τ ρ Γ α} {q : P σ τ ρ Γ β} {f : ParseFns σ τ α} {g : ParseFns σ τ β}
    (merge : α → β → γ) (hp : RecAt env D k p f) (hq : RecAt env D k q g) :
    RecAt env D k (.seqWith p q merge) (seqFns f g merge) := by
  intro i ctx b w hi hc hne
  obtain ⟨o, w1, h1, h2⟩ := hp i ctx b w hi hc fun h => hne (by simp [seqFns, seqFn, h])
  cases o with
  | raises e => exact ⟨_, _, .seqRaised h1, found_seq_raised h2⟩
  | rejects q x e => exact ⟨_, _, .seqRejects h1, found_seq_rejects h2⟩
  | accepts v j x =>
    obtain ⟨r, h3, rfl, rfl, rfl, h4, hfr⟩ := h2.inv_accepts
    obtain ⟨o, w2, h5, h6⟩ := hq r.pos r.ctx (if i < r.pos then some k else b) w1 hfr.hi h4
      fun h' => hne (by
        simp only [seqFns, seqFn, Act.bind_apply, h3, Run.bind_ret, budget_eq hfr, h']
        rfl)
    rw [hfr.ctx.mark] at h5
    exact ⟨_, _, .seq h1 h5, found_seq hfr h3 h6⟩
  | repairs cs q' x e =>
    obtain ⟨r, h3, h4, rfl, rfl, h5, hfr⟩ := h2.inv_repairs
    have heq := seq_eq_repairs (g := g) (merge := merge) h3
    rw [heq] at hne ⊢
    rcases threads_contReps_sound (k := k) (w := w1) (merge := merge) (b' := some)
        (K := fun _ p' ctx x => g.fn s p' ctx k (some x))
        (R := fun d w o w' => Rec env s D.col k q ctx.mark d.stop (some d.left) w o w') h5
        (fun d y w hy hd hn => by
          have hy' := hfr.reps y hy
          obtain ⟨o, w', h8, h9⟩ := hq y.pos y.ctx (some y.ins) w hy'.hi hd.ctx hn
          rw [hy'.ctx.mark] at h8
          rw [hd.stop, hd.left]
          exact ⟨o, w', h8, h9⟩)
        (fun h => hne (by simp [continueParse, h])) with
      ⟨os, w2, h6, -, ts, h7, h8, h9⟩ | ⟨cs', d, ds, os, e, w2, w3, rfl, h6, h7, h8⟩
    · have hcalm := h6.all
      obtain ⟨ws, rfl, rfl, h10, h11⟩ := h6.toWorlds
      exact ⟨_, _, .seqRepairs h1 h10 (fun n d o hd ho => (h11 n d o hd ho).1) hcalm,
        found_continue h7 h8 h4 rfl rfl hfr (h9 _ _ _ hfr.reps)⟩
    · have hcalm := h6.all
      obtain ⟨ws, rfl, rfl, h10, h11⟩ := h6.toWorlds
      exact ⟨_, _, .seqRepairsRaises h1 h10 (fun n d o hd ho => (h11 n d o hd ho).1) hcalm h7,
        found_continue_raises h8⟩

theorem rec_maybe {p : P σ τ ρ Γ α} {f : ParseFns σ τ α} (hp : RecAt env D k p f) :
    RecAt env D k (.maybe p) (maybeFns f) := by
  intro i ctx b w hi hc hne
  obtain ⟨o, w1, h1, h2⟩ := hp i ctx none w hi hc fun h => hne (by simp [maybeFns, maybeFn, h])
  rcases h2.cases_none with ⟨v, j, x, rfl⟩ | hfin | ⟨q1, x1, rfl⟩
  · exact ⟨_, _, .maybe h1, found_maybe h2⟩
  · exact ⟨_, _, .maybeFinal h1 hfin, found_maybe_final hfin h2⟩
  · exact ⟨_, _, .maybeNone h1, found_maybe_none hi hc h2⟩

theorem rec_many {p : P σ τ ρ Γ α} {f : ParseFns σ τ α} (hp : RecAt env D k p f) (n : Nat) :
    RecAt env D k (.many p) (manyFns n f) := by
  intro i ctx b w hi hc hne
  show ∃ o w', _ ∧ Found D i ctx b w' o (manyLoop f.fn s k n i ctx false [] w)
  have hne : manyLoop f.fn s k n i ctx false [] w ≠ .diverge := hne
  induction n generalizing i ctx b w with
  | zero => exact absurd rfl hne
  | succ n ih =>
    obtain ⟨o, w1, h1, h2⟩ := hp i ctx none w hi hc fun h => hne (by simp [manyLoop, h])
    cases o with
    | raises e => exact ⟨_, _, .manyRaised h1, found_many_raised h2⟩
    | rejects q x c =>
      cases c with
      | true => exact ⟨_, _, .manyRejects h1, found_many_rejects h2⟩
      | false => exact ⟨_, _, .manyEnd h1, found_many_end hi hc h2⟩
    | accepts v j x =>
      obtain ⟨r, h3, rfl, rfl, rfl, h4, hfr⟩ := h2.inv_accepts
      by_cases hlt : i < r.pos
      · have hne' : manyLoop f.fn s k n r.pos r.ctx false [] w1 ≠ .diverge := by
          intro h
          apply hne
          rw [many_eq_item hfr h3 hlt, h]; rfl
        obtain ⟨o, w2, h5, h6⟩ := ih r.pos r.ctx none w1 hfr.hi h4 hne' hne'
        rw [hfr.ctx.mark] at h5
        exact ⟨_, _, .manyItem h1 hlt h5, found_many_item hfr h3 hlt h6⟩
      · have he : r.pos = i := by have := hfr.lo; omega
        rw [he] at h1
        exact ⟨_, _, .manyEmpty h1, found_many_empty hfr h3 hlt⟩
    | repairs cs q x c =>
      obtain ⟨r, h3, h4, rfl, rfl, h5, hfr⟩ := h2.inv_repairs
      rw [many_eq_repairs h3] at hne ⊢
      rcases threads_contReps_sound (k := k) (w := w1) (b' := fun _ => none)
          (merge := (List.cons : α → List α → List α))
          (K := fun _ p' c _ => manyLoop f.fn s k n p' c false [])
          (R := fun d w o w' => Rec env s D.col k (.many p) ctx.mark d.stop none w o w') h5
          (fun d y w hy hd hn => by
            have hy' := hfr.reps y hy
            obtain ⟨o, w', h6, h7⟩ := ih y.pos y.ctx none w hy'.hi hd.ctx hn hn
            rw [hy'.ctx.mark] at h6
            rw [hd.stop]
            exact ⟨o, w', h6, h7⟩)
          (fun h => hne (by simp [continueParse, h])) with
        ⟨os, w2, h6, -, ts, h7, h8, h9⟩ | ⟨cs', d, ds, os, e, w2, w3, rfl, h6, h7, h8⟩
      · have hcalm := h6.all
        obtain ⟨ws, rfl, rfl, h10, h11⟩ := h6.toWorlds
        exact ⟨_, _, .manyRepairs h1 h10 (fun n d o hd ho => (h11 n d o hd ho).1) hcalm,
          (found_continue h7 h8 h4 rfl rfl hfr (h9 _ _ _ hfr.reps)).weaken⟩
      · have hcalm := h6.all
        obtain ⟨ws, rfl, rfl, h10, h11⟩ := h6.toWorlds
        exact ⟨_, _, .manyRepairsRaises h1 h10 (fun n d o hd ho => (h11 n d o hd ho).1) hcalm h7,
          found_continue_raises h8⟩

theorem rec_attempt {p : P σ τ ρ Γ α} {f : ParseFns σ τ α} (he : EvalAt env D p f)
    (hp : RecAt env D k p f) : RecAt env D k (.attempt p) (attemptFns f) := by
  intro i ctx b w hi hc hne
  cases b with
  | none =>
    obtain ⟨o, w1, h1, h2⟩ := he i ctx w hi hc fun h => hne (by simp [attemptFns, attemptFn, h])
    exact ⟨_, _, .attempt h1, found_attempt h2⟩
  | some r =>
    obtain ⟨o, w1, h1, h2⟩ := hp i ctx (some r) w hi hc hne
    exact ⟨_, _, .attemptRepair h1, h2⟩

theorem rec_label {p : P σ τ ρ Γ α} {f : ParseFns σ τ α} {x : String}
    (hp : RecAt env D k p f) : RecAt env D k (.label p x) (labelFns f x) := by
  intro i ctx b w hi hc hne
  obtain ⟨o, w1, h1, h2⟩ := hp i ctx b w hi hc fun h => hne (by simp [labelFns, h])
  exact ⟨_, _, .label h1, found_label h2⟩

theorem rec_recover {p : P σ τ ρ Γ α} {f : ParseFns σ τ α}
    (hp : RecAt env D k p f) : RecAt env D k (.recover p) (recoverFns f) := by
  intro i ctx b w hi hc hne
  obtain ⟨o, w1, h1, h2⟩ := hp i ctx b w hi hc fun h => hne (by simp [recoverFns, recoverFn, h])
  exact ⟨_, _, .recover h1, found_recover h2⟩

theorem rec_recoverWith {p : P σ τ ρ Γ α} {f : ParseFns σ τ α} {x : α} {l : String}
    (hp : RecAt env D k p f) : RecAt env D k (.recoverWith p x l) (recoverWithFns f x l) := by
  intro i ctx b w hi hc hne
  obtain ⟨o, w1, h1, h2⟩ := hp i ctx b w hi hc fun h => hne (by
    cases b <;> simp [recoverWithFns, recoverWithFn, h])
  by_cases hb : b = none ∨ b = some 0 ∨ o.gaveUp = none
  · exact ⟨_, _, .recoverWithNo h1 hb, found_recoverWith_no hb h2⟩
  · simp only [not_or] at hb
    obtain ⟨hb1, hb2, hb3⟩ := hb
    cases b with
    | none => exact absurd rfl hb1
    | some r =>
      have hr : r ≠ 0 := fun h => hb2 (by rw [h])
      exact ⟨_, _, .recoverWith h1 hr hb3, found_recoverWith hi hc hr hb3 h2⟩

theorem rec_recoverWithFn {p : P σ τ ρ Γ α} {f : ParseFns σ τ α} {c : Callback σ (List τ × Nat) α}
    {lbl : α → String} (hp : RecAt env D k p f) :
    RecAt env D k (.recoverWithFn p c lbl) (recoverWithFnFns f c lbl) := by
  intro i ctx b w hi hc hne
  obtain ⟨o, w1, h1, h2⟩ := hp i ctx b w hi hc fun h => hne (by
    cases b <;> simp [recoverWithFnFns, recoverWithFnFn, h])
  by_cases hb : b = none ∨ b = some 0 ∨ o.gaveUp = none
  · exact ⟨_, _, .recoverWithFnNo h1 hb, found_recoverWithFn_no hb h2⟩
  · simp only [not_or] at hb
    obtain ⟨hb1, hb2, hb3⟩ := hb
    cases b with
    | none => exact absurd rfl hb1
    | some r =>
      have hr : r ≠ 0 := fun h => hb2 (by rw [h])
      rcases calls_cases c (s, i) w1 with ⟨x, w2, hx⟩ | ⟨e, w2, hx⟩
      · exact ⟨_, _, .recoverWithFn h1 hr hb3 hx, found_recoverWithFn hi hc hr hb3 hx h2⟩
      · exact ⟨_, _, .recoverWithFnRaises h1 hr hb3 hx, found_recoverWithFn_raises hr hb3 hx h2⟩

theorem rec_block {p : P σ τ ρ Γ α} {f : ParseFns σ τ α} (hl : D.layout)
    (h : RecAt env D k p f) : RecAt env D k (.block p) (blockFns f) := by
  intro i ctx b w hi hc hne
  obtain ⟨o, w1, h1, h2⟩ := h i ((ctx.updateLoc s i).setMark (ctx.updateLoc s i).loc.col) b w hi
    ((hc.updateLoc (Nat.le_refl _) hi).setMark _) fun h => hne (by simp [blockFns, h])
  exact ⟨_, _, .block (hc.here hi hl).2 h1, found_block hi hc h2⟩

theorem rec_aligned {p : P σ τ ρ Γ α} {f : ParseFns σ τ α} (hl : D.layout)
    (h : RecAt env D k p f) : RecAt env D k (.aligned p) (alignedFns f) := by
  intro i ctx b w hi hc hne
  have hh := hc.here hi hl
  by_cases heq : (ctx.updateLoc s i).mark = (ctx.updateLoc s i).loc.col
  · obtain ⟨o, w1, h1, h2⟩ := h i (ctx.updateLoc s i) b w hi (hc.updateLoc (Nat.le_refl _) hi)
      fun h => hne (by simp [alignedFns, heq, h])
    refine ⟨_, _, .aligned ?_ ?_, found_aligned heq h2⟩
    · rw [updateLoc_mark] at heq; exact heq ▸ hh.2
    · rw [updateLoc_mark] at h1; exact h1
  · refine ⟨_, w, .alignedNot hh.2 fun h => heq (by rw [updateLoc_mark]; exact h.symm), ?_⟩
    simp only [alignedFns, heq, if_false]
    exact .mk_rejects hh.1 rfl rfl

theorem rec_indented {p : P σ τ ρ Γ α} {f : ParseFns σ τ α} {delta : Int}
    (hl : D.layout) (h : RecAt env D k p f) :
    RecAt env D k (.indented delta p) (indentedFns delta f) := by
  intro i ctx b w hi hc hne
  have hh := hc.here hi hl
  by_cases heq : ((ctx.updateLoc s i).mark : Int) + delta = (ctx.updateLoc s i).loc.col
  · obtain ⟨o, w1, h1, h2⟩ := h i ((ctx.updateLoc s i).setMark (ctx.updateLoc s i).loc.col) b w hi
      ((hc.updateLoc (Nat.le_refl _) hi).setMark _) fun h => hne (by simp [indentedFns, h, heq])
    exact ⟨_, _, .indented hh.2 (by rw [updateLoc_mark] at heq; exact heq) h1,
      found_indented hi hc heq h2⟩
  · refine ⟨_, w, .indentedNot hh.2 (by rw [updateLoc_mark] at heq; exact heq), ?_⟩
    simp only [indentedFns, heq, if_false]
    exact .mk_rejects hh.1 rfl rfl

theorem rec_denoteWith (D : LocDisc s) (k : Int) (fuel : Nat) (tbl : (i : ρ) → ParseFns σ τ (Γ i))
    (hte : ∀ i, EvalAt env D (.ref i) (tbl i)) (ht : ∀ i, RecAt env D k (.ref i) (tbl i))
    (p : P σ τ ρ Γ α) (hl : D.layout ∨ p.NoLayout) : RecAt env D k p (denoteWith fuel tbl p) := by
  have fc := frame_closed.closed (τ := τ) (env0 : Reparsec.Env τ Empty fun _ => Unit)
  have rc := rec_closed (τ := τ) (env0 : Reparsec.Env τ Empty fun _ => Unit) D k
    (.inr fun i => i.elim)
  induction p with
  | pure x =>
    exact recAt_lift (fc.pure x).2 ((rc.pure x).find (.inr trivial)) fun _ _ _ _ w h => rec_prim w h
  | pureFn c => exact rec_pureFn c
  | unexpected x =>
    exact recAt_lift (fc.unexpected x).2 ((rc.unexpected x).find (.inr trivial))
      fun _ _ _ _ w h => rec_prim w h
  | eof => exact recAt_lift fc.eof.2 (rc.eof.find (.inr trivial)) fun _ _ _ _ w h => rec_prim w h
  | satisfy c => exact rec_satisfy c
  | sym x l =>
    exact recAt_lift (fc.sym x l).2 ((rc.sym x l).find (.inr trivial)) fun _ _ _ _ w h => rec_prim w h
  | literal x ss hx =>
    exact recAt_lift (fc.literal x ss hx).2 ((rc.literal x ss hx).find (.inr trivial))
      fun _ _ _ _ w h => rec_prim w h
  | regexp mt =>
    exact recAt_lift (fc.regexp mt).2 ((rc.regexp mt).find (.inr trivial))
      fun _ _ _ _ w h => rec_prim w h
  | fmap p c ih => exact rec_fmap c (ih hl)
  | alt p q ih1 ih2 =>
    exact rec_alt (ih1 (hl.imp_right fun h => h.1)) (ih2 (hl.imp_right fun h => h.2))
  | bind p c k ih1 ih2 =>
    exact rec_bind (ih1 (hl.imp_right fun h => h.1)) fun a => ih2 a (hl.imp_right fun h => h.2 a)
  | seqWith p q merge ih1 ih2 =>
    exact rec_seq merge (ih1 (hl.imp_right fun h => h.1)) (ih2 (hl.imp_right fun h => h.2))
  | maybe p ih => exact rec_maybe (ih hl)
  | many p ih => exact rec_many (ih hl) fuel
  | attempt p ih => exact rec_attempt (eval_denoteWith D fuel tbl hte p hl) (ih hl)
  | label p x ih => exact rec_label (ih hl)
  | recover p ih => exact rec_recover (ih hl)
  | recoverWith p x vs ih => exact rec_recoverWith (ih hl)
  | recoverWithFn p c lbl ih => exact rec_recoverWithFn (ih hl)
  | block p ih =>
    have hl' : D.layout := hl.elim id fun h => h.elim
    exact rec_block hl' (ih (.inl hl'))
  | aligned p ih =>
    have hl' : D.layout := hl.elim id fun h => h.elim
    exact rec_aligned hl' (ih (.inl hl'))
  | indented d p ih =>
    have hl' : D.layout := hl.elim id fun h => h.elim
    exact rec_indented hl' (ih (.inl hl'))
  | ref i => exact ht i

theorem rec_table (D : LocDisc s) (k : Int)
    (henv : D.layout ∨ ∀ i q, env i = some q → q.NoLayout) (fuel : Nat) :
    ∀ i, RecAt env D k (.ref i) (table env fuel i) := by
  induction fuel with
  | zero => intro i j ctx b w _ _ hne; exact absurd rfl hne
  | succ n ih =>
    intro i
    unfold table
    cases he : env i with
    | none => exact fun j ctx b w _ _ _ => ⟨_, w, .refUndefined he, .raises⟩
    | some p =>
      intro j ctx b w hi hc hne
      obtain ⟨o, w', h1, h2⟩ := rec_denoteWith D k n (table env n) (eval_table D henv n) ih p
        (henv.imp_right fun h => h i p he) j ctx b w hi hc hne
      exact ⟨o, w', .ref he h1, h2⟩

theorem rec_denote (env : Env σ τ ρ Γ) (D : LocDisc s) (k : Int) (p : P σ τ ρ Γ α)
    (h : D.layout ∨ NoLayout env p) (fuel : Nat) : RecAt env D k p (denote env fuel p) :=
  rec_denoteWith D k fuel _ (eval_table D (h.imp_right fun h => h.2) fuel)
    (rec_table D k (h.imp_right fun h => h.2) fuel) p (h.imp_right fun h => h.1)

/-! ### Completeness: every finding of the relation is what the run shows -/

/-- With enough fuel the run shows this finding. -/
def FoundAt (env : Env σ τ ρ Γ) (D : LocDisc s) (k : Int) (p : P σ τ ρ Γ α) (m i : Nat)
    (b : Option Int) (w : World σ) (o : Finding α) (w' : World σ) : Prop :=
  ∃ n, ∀ n', n ≤ n' → ∀ ctx, CtxOK D ctx i → ctx.mark = m →
    Found D i ctx b w' o ((denote env n' p).fn s i ctx k b w)

theorem FoundAt.map {p : P σ τ ρ Γ α} {q : P σ τ ρ Γ β} {m i : Nat} {b b' : Option Int}
    {o : Finding α} {o' : Finding β} {w w1 w2 : World σ} (h : FoundAt env D k p m i b w o w1)
    (f : ∀ n ctx, CtxOK D ctx i → ctx.mark = m →
      Found D i ctx b w1 o ((denote env n p).fn s i ctx k b w) →
      Found D i ctx b' w2 o' ((denote env n q).fn s i ctx k b' w)) :
    FoundAt env D k q m i b' w o' w2 := by
  obtain ⟨n, h⟩ := h
  exact ⟨n, fun n' hn ctx hc hm => f _ _ hc hm (h n' hn ctx hc hm)⟩

theorem FoundAt.of {p : P σ τ ρ Γ α} {m i : Nat} {b : Option Int} {o : Finding α} {w w' : World σ}
    (f : ∀ n ctx, CtxOK D ctx i → ctx.mark = m →
      Found D i ctx b w' o ((denote env n p).fn s i ctx k b w)) :
    FoundAt env D k p m i b w o w' := ⟨0, fun n _ => f n⟩

omit [BEq τ] in
/-- A bound for all indices. -/
theorem index_bound {len : Nat} {Q : Nat → Nat → Prop}
    (h : ∀ n, n < len → ∃ N, ∀ N', N ≤ N' → Q N' n) : ∃ N, ∀ N', N ≤ N' → ∀ n, n < len → Q N' n := by
  induction len with
  | zero => exact ⟨0, fun _ _ n hn => by omega⟩
  | succ len ih =>
    obtain ⟨N1, h1⟩ := ih fun n hn => h n (by omega)
    obtain ⟨N2, h2⟩ := h len (by omega)
    refine ⟨max N1 N2, fun N' hN n hn => ?_⟩
    rcases Nat.lt_succ_iff_lt_or_eq.1 hn with hn | rfl
    · exact h1 N' (by omega) n hn
    · exact h2 N' (by omega)

omit [BEq τ] in
theorem candidate_stop {cs : List (Cand α)} {i : Nat} {ctx : Ctx τ} {b : Option Int}
    {r : Recovered τ α} (h : Each (CandShows D) cs r.repairs) (hf : RecFrame s i ctx b r) {n : Nat}
    {d : Cand α} (hd : cs[n]? = some d) : d.stop ≤ s.length := by
  have hlt := (List.getElem?_eq_some_iff.1 hd).1
  rw [h.length] at hlt
  rw [(h.get hd (List.getElem?_eq_getElem hlt)).stop]
  exact (hf.reps _ (List.getElem_mem hlt)).hi

/-- What carrying on from a list of candidates gives rise to. -/
theorem conts {p : P σ τ ρ Γ α} {m i : Nat} {b : Option Int} {cs : List (Cand α)} {q : Nat}
    {x : List String} {c : Bool} {merge : α → β → γ} {b' : Int → Option Int}
    (K : Nat → α → Nat → Ctx τ → Int → Act σ (Result τ β)) {os : List (Finding β)}
    {w : World σ} (ws : Nat → World σ)
    (h1 : FoundAt env D k p m i b w (.repairs cs q x c) (ws 0)) (hl : os.length = cs.length)
    (h2 : ∀ (n : Nat) (d : Cand α) o, cs[n]? = some d → os[n]? = some o → d.stop ≤ s.length →
      ∃ N, ∀ N', N ≤ N' → ∀ ctx, CtxOK D ctx d.stop → ctx.mark = m →
        Found D d.stop ctx (b' d.left) (ws (n + 1)) o (K N' d.value d.stop ctx d.left (ws n)))
    (h3 : ∀ o ∈ os, o.calm) :
    ∃ N, ∀ N', N ≤ N' → ∀ ctx, CtxOK D ctx i → ctx.mark = m → ∀ r,
      (denote env N' p).fn s i ctx k b w = .ret (.recovered r) (ws 0) →
      Found D i ctx b (ws cs.length) (.repairs (andThenAll k merge cs os) q x c)
        (continueParse r k (K N') merge (ws 0)) := by
  by_cases hex : ∃ ctx, CtxOK D ctx i ∧ ctx.mark = m
  case neg => exact ⟨0, fun _ _ ctx hc hm => absurd ⟨ctx, hc, hm⟩ hex⟩
  obtain ⟨ctx0, hc0, hm0⟩ := hex
  obtain ⟨n1, h1⟩ := h1
  have hstop : ∀ (n : Nat) d, cs[n]? = some d → d.stop ≤ s.length := by
    obtain ⟨r, -, -, -, -, h4, h5⟩ := (h1 n1 (Nat.le_refl _) ctx0 hc0 hm0).inv_repairs
    exact fun n d hd => candidate_stop h4 h5 hd
  obtain ⟨n2, h4⟩ := index_bound (len := cs.length)
    (Q := fun N' n => ∀ d o, cs[n]? = some d → os[n]? = some o →
      ∀ ctx, CtxOK D ctx d.stop → ctx.mark = m →
        Found D d.stop ctx (b' d.left) (ws (n + 1)) o (K N' d.value d.stop ctx d.left (ws n)))
    fun n hn => by
      obtain ⟨N, h⟩ := h2 n cs[n] (os[n]'(by omega)) (List.getElem?_eq_getElem _)
        (List.getElem?_eq_getElem _) (hstop n _ (List.getElem?_eq_getElem hn))
      refine ⟨N, fun N' hN d o hd ho => ?_⟩
      rw [List.getElem?_eq_getElem hn] at hd
      rw [List.getElem?_eq_getElem (by omega)] at ho
      cases hd; cases ho
      exact h N' hN
  refine ⟨max n1 n2, fun n' hn ctx hc hm r hr => ?_⟩
  obtain ⟨r', hr', ha, hb, hc', h5, h6⟩ := (h1 n' (by omega) ctx hc hm).inv_repairs
  rw [hr] at hr'
  cases hr'
  have hth : Threads (fun d w o w' => o.calm ∧ ∀ r' ∈ r.repairs, CandShows D d r' →
      Found D r'.pos r'.ctx (b' r'.ins) w' o (K n' r'.value r'.pos r'.ctx r'.ins w)) cs (ws 0) os
      (ws cs.length) := by
    refine Threads.ofWorlds ws hl fun n d o hd ho => ⟨h3 o (List.mem_of_getElem? ho), fun y hy hs => ?_⟩
    have := h4 n' (by omega) n (List.getElem?_eq_some_iff.1 hd).1 d o hd ho y.ctx (hs.stop ▸ hs.ctx)
      ((h6.reps y hy).ctx.mark.trans hm)
    rwa [hs.value, hs.stop, hs.left] at this
  obtain ⟨ts, h7, h8, h9⟩ := threads_contReps (k := k) (merge := merge) h5 h6.reps hth
  exact found_continue h7 h8 ha hb hc' h6 h9

theorem contsRaise {p : P σ τ ρ Γ α} {m i : Nat} {b : Option Int} {cs ds : List (Cand α)}
    {d : Cand α} {q : Nat} {x : List String} {c : Bool} {e : Exn} {merge : α → β → γ}
    {b' : Int → Option Int}
    (K : Nat → α → Nat → Ctx τ → Int → Act σ (Result τ β)) {os : List (Finding β)}
    {w w' : World σ} (ws : Nat → World σ)
    (h1 : FoundAt env D k p m i b w (.repairs (cs ++ d :: ds) q x c) (ws 0))
    (hl : os.length = cs.length)
    (h2 : ∀ (n : Nat) (d : Cand α) o, cs[n]? = some d → os[n]? = some o → d.stop ≤ s.length →
      ∃ N, ∀ N', N ≤ N' → ∀ ctx, CtxOK D ctx d.stop → ctx.mark = m →
        Found D d.stop ctx (b' d.left) (ws (n + 1)) o (K N' d.value d.stop ctx d.left (ws n)))
    (h3 : ∀ o ∈ os, o.calm)
    (h9 : d.stop ≤ s.length → ∃ N, ∀ N', N ≤ N' → ∀ ctx, CtxOK D ctx d.stop → ctx.mark = m →
        Found D d.stop ctx (b' d.left) w' (.raises e)
          (K N' d.value d.stop ctx d.left (ws cs.length))) :
    ∃ N, ∀ N', N ≤ N' → ∀ ctx, CtxOK D ctx i → ctx.mark = m → ∀ r,
      (denote env N' p).fn s i ctx k b w = .ret (.recovered r) (ws 0) →
      Found (α := γ) D i ctx b w' (.raises e) (continueParse r k (K N') merge (ws 0)) := by
  by_cases hex : ∃ ctx, CtxOK D ctx i ∧ ctx.mark = m
  case neg => exact ⟨0, fun _ _ ctx hc hm => absurd ⟨ctx, hc, hm⟩ hex⟩
  obtain ⟨ctx0, hc0, hm0⟩ := hex
  obtain ⟨n1, h1⟩ := h1
  have hstop : ∀ (n : Nat) d', (cs ++ d :: ds)[n]? = some d' → d'.stop ≤ s.length := by
    obtain ⟨r, -, -, -, -, h4, h5⟩ := (h1 n1 (Nat.le_refl _) ctx0 hc0 hm0).inv_repairs
    exact fun n d hd => candidate_stop h4 h5 hd
  obtain ⟨n3, h9⟩ := h9 (hstop cs.length d (by simp))
  obtain ⟨n2, h4⟩ := index_bound (len := cs.length)
    (Q := fun N' n => ∀ d o, cs[n]? = some d → os[n]? = some o →
      ∀ ctx, CtxOK D ctx d.stop → ctx.mark = m →
        Found D d.stop ctx (b' d.left) (ws (n + 1)) o (K N' d.value d.stop ctx d.left (ws n)))
    fun n hn => by
      obtain ⟨N, h⟩ := h2 n cs[n] (os[n]'(by omega)) (List.getElem?_eq_getElem _)
        (List.getElem?_eq_getElem _) (hstop n _ (by
          rw [List.getElem?_append_left hn]; exact List.getElem?_eq_getElem hn))
      refine ⟨N, fun N' hN d o hd ho => ?_⟩
      rw [List.getElem?_eq_getElem hn] at hd
      rw [List.getElem?_eq_getElem (by omega)] at ho
      cases hd; cases ho
      exact h N' hN
  refine ⟨max n1 (max n2 n3), fun n' hn ctx hc hm r hr => ?_⟩
  obtain ⟨r', hr', ha, hb, hc', h5, h6⟩ := (h1 n' (by omega) ctx hc hm).inv_repairs
  rw [hr] at hr'
  cases hr'
  have hth : Threads (fun d w o w' => o.calm ∧ ∀ r' ∈ r.repairs, CandShows D d r' →
      Found D r'.pos r'.ctx (b' r'.ins) w' o (K n' r'.value r'.pos r'.ctx r'.ins w)) cs (ws 0) os
      (ws cs.length) := by
    refine Threads.ofWorlds ws hl fun n d o hd ho => ⟨h3 o (List.mem_of_getElem? ho), fun y hy hs => ?_⟩
    have := h4 n' (by omega) n (List.getElem?_eq_some_iff.1 hd).1 d o hd ho y.ctx (hs.stop ▸ hs.ctx)
      ((h6.reps y hy).ctx.mark.trans hm)
    rwa [hs.value, hs.stop, hs.left] at this
  refine found_continue_raises (threads_contReps_raises h5 hth fun y hy hs => ?_)
  have := h9 n' (by omega) y.ctx (hs.stop ▸ hs.ctx) ((h6.reps y hy).ctx.mark.trans hm)
  rw [hs.value, hs.stop, hs.left] at this
  exact this.inv_raises

theorem rec_complete (D : LocDisc s) (hcol : ∀ i c c', D.col i c → D.col i c' → c = c')
    (henv : D.layout ∨ ∀ x q, env x = some q → q.NoLayout)
    {p : P σ τ ρ Γ α} {m i : Nat} {b : Option Int} {o : Finding α} {w w' : World σ}
    (h : Rec env s D.col k p m i b w o w') :
    i ≤ s.length → (D.layout ∨ p.NoLayout) → FoundAt env D k p m i b w o w' := by
  have fc := frame_closed.closed (τ := τ) (env0 : Reparsec.Env τ Empty fun _ => Unit)
  -- one parser after another
  have two : ∀ {α β γ : Type} {p : P σ τ ρ Γ α} {q : P σ τ ρ Γ β} {r : P σ τ ρ Γ γ}
      {m i b b' v j x o o'} {w w1 w1' w2 : World σ},
      FoundAt env D k p m i b w (.accepts v j x) w1 →
      (j ≤ s.length → FoundAt env D k q m j b' w1' o w2) →
      (∀ n ctx r', CtxOK D ctx i → OkFrame s i ctx r' →
        (denote env n p).fn s i ctx k b w = .ret (.ok r') w1 → r'.value = v →
        r'.pos = j → r'.expected = x →
        Found D j r'.ctx b' w2 o ((denote env n q).fn s j r'.ctx k b' w1') →
        Found D i ctx b w2 o' ((denote env n r).fn s i ctx k b w)) →
      FoundAt env D k r m i b w o' w2 := by
    intro α β γ p q r m i b b' v j x o o' w w1 w1' w2 h1 h2 h3
    by_cases hex : ∃ ctx, CtxOK D ctx i ∧ ctx.mark = m
    case neg => exact ⟨0, fun _ _ ctx hc hm => absurd ⟨ctx, hc, hm⟩ hex⟩
    obtain ⟨ctx0, hc0, hm0⟩ := hex
    obtain ⟨n1, h1⟩ := h1
    have hj : j ≤ s.length := by
      obtain ⟨r', hr, rfl, rfl, rfl, -, hf⟩ := (h1 n1 (Nat.le_refl _) ctx0 hc0 hm0).inv_accepts
      exact hf.hi
    obtain ⟨n2, h2⟩ := h2 hj
    refine ⟨max n1 n2, fun n' hn ctx hc hm => ?_⟩
    obtain ⟨r', hr, rfl, rfl, rfl, h4, hf⟩ := (h1 n' (by omega) ctx hc hm).inv_accepts
    exact h3 n' ctx r' hc hf hr rfl rfl rfl (h2 n' (by omega) r'.ctx h4 (hf.ctx.mark.trans hm))
  intro hi hl
  induction h with
  | @pure α x m i b w =>
    exact .of fun n ctx hc hm => found_lift (fc.pure x).2 hi (.mk_accepts rfl rfl rfl hc)
  | pureFn h =>
    refine .of fun n ctx hc hm => ?_
    show Found D _ ctx _ _ _ (((_ : Callback σ Unit _).call () >>= _) _)
    rw [Act.bind_apply, h.ok]
    exact .mk_accepts rfl rfl rfl hc (OkFrame.stay hi rfl rfl rfl)
  | pureFnRaises h =>
    refine .of fun n ctx hc hm => ?_
    show Found D _ ctx _ _ _ (((_ : Callback σ Unit _).call () >>= _) _)
    rw [Act.bind_apply, h.error]
    exact .raises
  | @unexpected x m i b w =>
    exact .of fun n ctx hc hm => found_lift (fc.unexpected x).2 hi
      (.mk_rejects (hc.report (Nat.le_refl _) hi) rfl rfl)
  | eof => exact .of fun n ctx hc hm => found_lift fc.eof.2 hi (finds_eof hc rfl)
  | eofNot h => exact .of fun n ctx hc hm => found_lift fc.eof.2 hi (finds_eof_not hi hc h)
  | eofSkip h => exact .of fun n ctx hc hm => found_lift fc.eof.2 hi (finds_eof_skip hi hc h)
  | satisfy h1 h2 => exact .of fun n ctx hc hm => found_satisfy hc h1 h2
  | satisfyRaises h1 h2 => exact .of fun n ctx hc hm => found_satisfy_raises h1 h2
  | satisfyNot h1 h2 => exact .of fun n ctx hc hm => found_satisfy_not hi hc h1 h2
  | satisfyEnd h1 => exact .of fun n ctx hc hm => found_satisfy_end hi hc h1
  | satisfySkip h1 h2 h3 h4 =>
    exact .of fun n ctx hc hm => found_satisfy_skip hi hc h1
      (.ofWorlds _ (Nat.le_of_lt h1) (Nat.le_of_lt (List.getElem?_eq_some_iff.1 h3).1) h2) h3 h4
  | satisfyNever h1 h2 =>
    exact .of fun n ctx hc hm => found_satisfy_never hi hc
      (.ofWorlds _ h1 (Nat.le_refl _) fun n t h3 _ h4 => h2 n t h3 h4)
  | satisfySkipRaises h1 h2 h3 h4 =>
    exact .of fun n ctx hc hm => found_satisfy_skip_raises h1
      (.ofWorlds _ (Nat.le_of_lt h1) (Nat.le_of_lt (List.getElem?_eq_some_iff.1 h3).1) h2) h3 h4
  | @sym x t l m i b w h1 h2 =>
    exact .of fun n ctx hc hm => found_lift (fc.sym x l).2 hi (finds_sym hc h1 h2)
  | @symNot x l m i w h1 =>
    exact .of fun n ctx hc hm => found_lift (fc.sym x l).2 hi (finds_sym_not hi hc h1)
  | @symSkip x t l m i j r w h1 h2 h3 h4 =>
    exact .of fun n ctx hc hm => found_lift (fc.sym x l).2 hi (finds_sym_skip hi hc h1 h2 h3 h4)
  | @symNever x l m i r w h1 =>
    exact .of fun n ctx hc hm => found_lift (fc.sym x l).2 hi (finds_sym_never hi hc h1)
  | @literal x l hx m i b w h1 =>
    exact .of fun n ctx hc hm => found_lift (fc.literal x l hx).2 hi (finds_literal hx hc h1)
  | @literalNot x l hx m i w h1 =>
    exact .of fun n ctx hc hm => found_lift (fc.literal x l hx).2 hi (finds_literal_not hi hc h1)
  | @literalSkip x l hx m i j r w h1 h2 h3 =>
    exact .of fun n ctx hc hm => found_lift (fc.literal x l hx).2 hi
      (finds_literal_skip hx hi hc h1 h2 h3)
  | @literalNever x l hx m i r w h1 =>
    exact .of fun n ctx hc hm => found_lift (fc.literal x l hx).2 hi (finds_literal_never hi hc h1)
  | @regexp β mt v m i j b w h1 =>
    exact .of fun n ctx hc hm => found_lift (fc.regexp mt).2 hi (finds_regexp hi hc h1)
  | @regexpRaises β mt e m i j b w h1 =>
    exact .of fun n ctx hc hm => found_lift (fc.regexp mt).2 hi (finds_regexp_raises h1)
  | @regexpNot β mt m i w h1 =>
    exact .of fun n ctx hc hm => found_lift (fc.regexp mt).2 hi (finds_regexp_not hi hc h1)
  | @regexpSkip β mt v m i j j' r w h1 h2 h3 h4 =>
    exact .of fun n ctx hc hm => found_lift (fc.regexp mt).2 hi
      (finds_regexp_skip hi hc h1 h2 h3 h4)
  | @regexpNever β mt m i r w h1 h2 =>
    exact .of fun n ctx hc hm => found_lift (fc.regexp mt).2 hi (finds_regexp_never hi hc h1 h2)
  | @regexpSkipRaises β mt e m i j j' r w h1 h2 h3 h4 =>
    exact .of fun n ctx hc hm => found_lift (fc.regexp mt).2 hi
      (finds_regexp_skip_raises h1 h2 h3 h4)
  | fmap h hfn ih => exact (ih hi hl).map fun n ctx hc hm hs => found_fmap hs hfn
  | fmapRaises h hfn ih => exact (ih hi hl).map fun n ctx hc hm hs => found_fmap_raises hs hfn
  | fmapRejects h ih => exact (ih hi hl).map fun n ctx hc hm hs => found_fmap_rejects hs
  | fmapRaised h ih => exact (ih hi hl).map fun n ctx hc hm hs => found_fmap_raised hs
  | fmapRepairs h hlen hfn ih =>
    exact (ih hi hl).map fun n ctx hc hm hs => found_fmap_repairs hs (.ofWorlds _ hlen hfn)
  | fmapRepairsRaises h hlen hfn he ih =>
    exact (ih hi hl).map fun n ctx hc hm hs =>
      found_fmap_repairs_raises hs (.ofWorlds _ hlen hfn) he
  | altFirst h ih =>
    exact (ih hi (hl.imp_right fun h => h.1)).map fun n ctx hc hm hs => found_alt_first hs
  | altFinal h hx ih =>
    exact (ih hi (hl.imp_right fun h => h.1)).map fun n ctx hc hm hs => found_alt_final hx hs
  | altSecond h1 h2 ih1 ih2 =>
    obtain ⟨n1, h1⟩ := ih1 hi (hl.imp_right fun h => h.1)
    obtain ⟨n2, h2⟩ := ih2 hi (hl.imp_right fun h => h.2)
    exact ⟨max n1 n2, fun n hn ctx hc hm => found_alt_second
      (h1 n (by omega) ctx hc hm) (h2 n (by omega) ctx hc hm)⟩
  | altSecondFinal h1 h2 hx ih1 ih2 =>
    obtain ⟨n1, h1⟩ := ih1 hi (hl.imp_right fun h => h.1)
    obtain ⟨n2, h2⟩ := ih2 hi (hl.imp_right fun h => h.2)
    exact ⟨max n1 n2, fun n hn ctx hc hm => found_alt_second_final hx
      (h1 n (by omega) ctx hc hm) (h2 n (by omega) ctx hc hm)⟩
  | altNeither h1 h2 ih1 ih2 =>
    obtain ⟨n1, h1⟩ := ih1 hi (hl.imp_right fun h => h.1)
    obtain ⟨n2, h2⟩ := ih2 hi (hl.imp_right fun h => h.2)
    exact ⟨max n1 n2, fun n hn ctx hc hm => found_alt_neither
      (h1 n (by omega) ctx hc hm) (h2 n (by omega) ctx hc hm)⟩
  | altRepair h1 h2 h3 hcalm h4 ih1 ih2 ih3 ih4 =>
    obtain ⟨n1, h1⟩ := ih1 hi (hl.imp_right fun h => h.1)
    obtain ⟨n2, h2⟩ := ih2 hi (hl.imp_right fun h => h.2)
    obtain ⟨n3, h3⟩ := ih3 hi (hl.imp_right fun h => h.1)
    obtain ⟨n4, h4⟩ := ih4 hi (hl.imp_right fun h => h.2)
    exact ⟨max (max n1 n2) (max n3 n4), fun n hn ctx hc hm => found_alt_repair
      (h1 n (by omega) ctx hc hm) (h2 n (by omega) ctx hc hm) (h3 n (by omega) ctx hc hm) hcalm
      (h4 n (by omega) ctx hc hm)⟩
  | altRepairRaises h1 h2 h3 ih1 ih2 ih3 =>
    obtain ⟨n1, h1⟩ := ih1 hi (hl.imp_right fun h => h.1)
    obtain ⟨n2, h2⟩ := ih2 hi (hl.imp_right fun h => h.2)
    obtain ⟨n3, h3⟩ := ih3 hi (hl.imp_right fun h => h.1)
    exact ⟨max (max n1 n2) n3, fun n hn ctx hc hm => found_alt_repair_raises
      (h1 n (by omega) ctx hc hm) (h2 n (by omega) ctx hc hm) (h3 n (by omega) ctx hc hm)⟩
  | bindRejects h ih =>
    exact (ih hi (hl.imp_right fun h => h.1)).map fun n ctx hc hm hs => found_bind_rejects hs
  | bindRaised h ih =>
    exact (ih hi (hl.imp_right fun h => h.1)).map fun n ctx hc hm hs => found_bind_raised hs
  | bindRaises h hfn ih =>
    refine (ih hi (hl.imp_right fun h => h.1)).map fun n ctx hc hm hs => ?_
    obtain ⟨r, h3, rfl, rfl, rfl, h4⟩ := hs.inv_accepts
    exact found_bind_raises h3 (next_error hfn)
  | bind h1 hfn h2 ih1 ih2 =>
    refine two (ih1 hi (hl.imp_right fun h => h.1))
      (fun hj => ih2 hj (hl.imp_right fun h => h.2 _)) ?_
    rintro n ctx r hc hf hr rfl rfl rfl hs
    exact found_bind hf hr (next_ok (g := fun v => denote env n _) hfn) hs
  | @bindRepairs α ι β p c g m i b cs q x d w os ws h1 hlen h2 hcalm ih1 ih2 =>
    have hp := ih1 hi (hl.imp_right fun h => h.1)
    obtain ⟨n1, h3⟩ := conts (merge := fun _ v => v) (b' := some)
      (fun n v j ctx x => (bindFns (lift (Reparsec.pureFns v))
        (next c fun v => denote env n (g v))).fn s j ctx k (some x)) ws hp hlen
      (fun n d o hd ho hs => ih2 n d o hd ho hs (hl.imp_right fun h => ⟨trivial, h.2⟩)) hcalm
    obtain ⟨n2, hp⟩ := hp
    refine ⟨max n1 n2, fun n' hn ctx hc hm => ?_⟩
    obtain ⟨r, hr, -⟩ := (hp n' (by omega) ctx hc hm).inv_repairs
    show Found D i ctx b _ _
      ((bindFns (denote env n' p) (next c fun v => denote env n' (g v))).fn s i ctx k b w)
    rw [bind_eq_repairs hr]
    exact h3 n' (by omega) ctx hc hm r hr
  | @bindRepairsRaises α ι β p c g m i b cs d ds q x d' e w w' os ws h1 hlen h2 hcalm h4 ih1 ih2 ih4 =>
    have hp := ih1 hi (hl.imp_right fun h => h.1)
    obtain ⟨n1, h3⟩ := contsRaise (merge := fun _ v => v) (b' := some)
      (fun n v j ctx x => (bindFns (lift (Reparsec.pureFns v))
        (next c fun v => denote env n (g v))).fn s j ctx k (some x)) ws hp hlen
      (fun n d o hd ho hs => ih2 n d o hd ho hs (hl.imp_right fun h => ⟨trivial, h.2⟩)) hcalm
      (fun hs => ih4 hs (hl.imp_right fun h => ⟨trivial, h.2⟩))
    obtain ⟨n2, hp⟩ := hp
    refine ⟨max n1 n2, fun n' hn ctx hc hm => ?_⟩
    obtain ⟨r, hr, -⟩ := (hp n' (by omega) ctx hc hm).inv_repairs
    show Found D i ctx b _ _
      ((bindFns (denote env n' p) (next c fun v => denote env n' (g v))).fn s i ctx k b w)
    rw [bind_eq_repairs hr]
    exact h3 n' (by omega) ctx hc hm r hr
  | seqRejects h ih =>
    exact (ih hi (hl.imp_right fun h => h.1)).map fun n ctx hc hm hs => found_seq_rejects hs
  | seqRaised h ih =>
    exact (ih hi (hl.imp_right fun h => h.1)).map fun n ctx hc hm hs => found_seq_raised hs
  | seq h1 h2 ih1 ih2 =>
    refine two (ih1 hi (hl.imp_right fun h => h.1))
      (fun hj => ih2 hj (hl.imp_right fun h => h.2)) ?_
    rintro n ctx r hc hf hr rfl rfl rfl hs
    exact found_seq hf hr hs
  | @seqRepairs α β γ p q merge m i b cs q' x d w os ws h1 hlen h2 hcalm ih1 ih2 =>
    have hp := ih1 hi (hl.imp_right fun h => h.1)
    obtain ⟨n1, h3⟩ := conts (merge := merge) (b' := some)
      (fun n v j ctx x => (denote env n q).fn s j ctx k (some x)) ws hp hlen
      (fun n d o hd ho hs => ih2 n d o hd ho hs (hl.imp_right fun h => h.2)) hcalm
    obtain ⟨n2, hp⟩ := hp
    refine ⟨max n1 n2, fun n' hn ctx hc hm => ?_⟩
    obtain ⟨r, hr, -⟩ := (hp n' (by omega) ctx hc hm).inv_repairs
    show Found D i ctx b _ _ ((seqFns (denote env n' p) (denote env n' q) merge).fn s i ctx k b w)
    rw [seq_eq_repairs hr]
    exact h3 n' (by omega) ctx hc hm r hr
  | @seqRepairsRaises α β γ p q merge m i b cs d ds q' x d' e w w' os ws h1 hlen h2 hcalm h4 ih1 ih2 ih4 =>
    have hp := ih1 hi (hl.imp_right fun h => h.1)
    obtain ⟨n1, h3⟩ := contsRaise (merge := merge) (b' := some)
      (fun n v j ctx x => (denote env n q).fn s j ctx k (some x)) ws hp hlen
      (fun n d o hd ho hs => ih2 n d o hd ho hs (hl.imp_right fun h => h.2)) hcalm
      (fun hs => ih4 hs (hl.imp_right fun h => h.2))
    obtain ⟨n2, hp⟩ := hp
    refine ⟨max n1 n2, fun n' hn ctx hc hm => ?_⟩
    obtain ⟨r, hr, -⟩ := (hp n' (by omega) ctx hc hm).inv_repairs
    show Found D i ctx b _ _ ((seqFns (denote env n' p) (denote env n' q) merge).fn s i ctx k b w)
    rw [seq_eq_repairs hr]
    exact h3 n' (by omega) ctx hc hm r hr
  | maybe h ih => exact (ih hi hl).map fun n ctx hc hm hs => found_maybe hs
  | maybeNone h ih => exact (ih hi hl).map fun n ctx hc hm hs => found_maybe_none hi hc hs
  | maybeFinal h hx ih => exact (ih hi hl).map fun n ctx hc hm hs => found_maybe_final hx hs
  | @manyItem α p m i b v j x o w w1 w2 h1 hlt h2 ih1 ih2 =>
    by_cases hex : ∃ ctx, CtxOK D ctx i ∧ ctx.mark = m
    case neg => exact ⟨0, fun _ _ ctx hc hm => absurd ⟨ctx, hc, hm⟩ hex⟩
    obtain ⟨ctx0, hc0, hm0⟩ := hex
    obtain ⟨n1, h1⟩ := ih1 hi hl
    have hj : j ≤ s.length := by
      obtain ⟨r', hr, rfl, rfl, rfl, -, hf⟩ := (h1 n1 (Nat.le_refl _) ctx0 hc0 hm0).inv_accepts
      exact hf.hi
    obtain ⟨n2, h2⟩ := ih2 hj hl
    refine ⟨max n1 n2 + 1, fun n' hn ctx hc hm => ?_⟩
    obtain ⟨n, rfl⟩ : ∃ n, n' = n + 1 := ⟨n' - 1, by omega⟩
    obtain ⟨r, hr, rfl, rfl, rfl, h4, hf⟩ := (h1 (n + 1) (by omega) ctx hc hm).inv_accepts
    have h5 := h2 n (by omega) r.ctx h4 (hf.ctx.mark.trans hm)
    refine found_many_item hf hr hlt (Found.le h5 ?_)
    exact manyLoop_le (denote_le env (Nat.le_succ n) p).2 s k (Nat.le_refl _) _ _ _ _ _
  | manyEnd h ih =>
    obtain ⟨n1, h1⟩ := ih hi hl
    refine ⟨n1 + 1, fun n' hn ctx hc hm => ?_⟩
    obtain ⟨n, rfl⟩ : ∃ n, n' = n + 1 := ⟨n' - 1, by omega⟩
    exact found_many_end hi hc (h1 (n + 1) (by omega) ctx hc hm)
  | manyRejects h ih =>
    obtain ⟨n1, h1⟩ := ih hi hl
    refine ⟨n1 + 1, fun n' hn ctx hc hm => ?_⟩
    obtain ⟨n, rfl⟩ : ∃ n, n' = n + 1 := ⟨n' - 1, by omega⟩
    exact found_many_rejects (h1 (n + 1) (by omega) ctx hc hm)
  | manyRaised h ih =>
    obtain ⟨n1, h1⟩ := ih hi hl
    refine ⟨n1 + 1, fun n' hn ctx hc hm => ?_⟩
    obtain ⟨n, rfl⟩ : ∃ n, n' = n + 1 := ⟨n' - 1, by omega⟩
    exact found_many_raised (h1 (n + 1) (by omega) ctx hc hm)
  | manyEmpty h ih =>
    obtain ⟨n1, h1⟩ := ih hi hl
    refine ⟨n1 + 1, fun n' hn ctx hc hm => ?_⟩
    obtain ⟨n, rfl⟩ : ∃ n, n' = n + 1 := ⟨n' - 1, by omega⟩
    obtain ⟨r, hr, rfl, h5, rfl, h4, hf⟩ := (h1 (n + 1) (by omega) ctx hc hm).inv_accepts
    exact found_many_empty hf hr (by omega)
  | @manyRepairs α p m i b cs q x d w os ws h1 hlen h2 hcalm ih1 ih2 =>
    have hp := ih1 hi hl
    obtain ⟨n1, h3⟩ := conts (merge := List.cons) (b' := fun _ => none)
      (fun n v j c x => manyLoop (denote env n p).fn s k (n - 1) j c false []) ws hp hlen
      (fun n d o hd ho hs => by
        obtain ⟨N, h⟩ := ih2 n d o hd ho hs hl
        refine ⟨N + 1, fun N' hN ctx hc hm => ?_⟩
        obtain ⟨n, rfl⟩ : ∃ n, N' = n + 1 := ⟨N' - 1, by omega⟩
        exact Found.le (h n (by omega) ctx hc hm)
          (manyLoop_le (denote_le env (Nat.le_succ n) p).2 s k (Nat.le_refl _) _ _ _ _ _)) hcalm
    obtain ⟨n2, hp⟩ := hp
    refine ⟨max n1 n2 + 1, fun n' hn ctx hc hm => ?_⟩
    obtain ⟨n, rfl⟩ : ∃ n, n' = n + 1 := ⟨n' - 1, by omega⟩
    obtain ⟨r, hr, -⟩ := (hp (n + 1) (by omega) ctx hc hm).inv_repairs
    show Found D i ctx b _ _ (manyLoop (denote env (n + 1) p).fn s k (n + 1) i ctx false [] w)
    rw [many_eq_repairs hr]
    exact (h3 (n + 1) (by omega) ctx hc hm r hr).weaken
  | @manyRepairsRaises α p m i b cs d ds q x d' e w w' os ws h1 hlen h2 hcalm h4 ih1 ih2 ih4 =>
    have hp := ih1 hi hl
    have up : ∀ (d : Cand α) o w w', FoundAt env D k (.many p) m d.stop none w o w' →
        ∃ N, ∀ N', N ≤ N' → ∀ ctx, CtxOK D ctx d.stop → ctx.mark = m →
          Found D d.stop ctx none w' o
            (manyLoop (denote env N' p).fn s k (N' - 1) d.stop ctx false [] w) := by
      rintro d o w w' ⟨N, h⟩
      refine ⟨N + 1, fun N' hN ctx hc hm => ?_⟩
      obtain ⟨n, rfl⟩ : ∃ n, N' = n + 1 := ⟨N' - 1, by omega⟩
      exact Found.le (h n (by omega) ctx hc hm)
        (manyLoop_le (denote_le env (Nat.le_succ n) p).2 s k (Nat.le_refl _) _ _ _ _ _)
    obtain ⟨n1, h3⟩ := contsRaise (merge := List.cons) (b' := fun _ => none)
      (fun n v j c x => manyLoop (denote env n p).fn s k (n - 1) j c false []) ws hp hlen
      (fun n d o hd ho hs => up d o _ _ (ih2 n d o hd ho hs hl)) hcalm
      (fun hs => up d _ _ _ (ih4 hs hl))
    obtain ⟨n2, hp⟩ := hp
    refine ⟨max n1 n2 + 1, fun n' hn ctx hc hm => ?_⟩
    obtain ⟨n, rfl⟩ : ∃ n, n' = n + 1 := ⟨n' - 1, by omega⟩
    obtain ⟨r, hr, -⟩ := (hp (n + 1) (by omega) ctx hc hm).inv_repairs
    show Found D i ctx b _ _ (manyLoop (denote env (n + 1) p).fn s k (n + 1) i ctx false [] w)
    rw [many_eq_repairs hr]
    exact (h3 (n + 1) (by omega) ctx hc hm r hr).weaken
  | attempt h =>
    obtain ⟨n1, h1⟩ := eval_complete D hcol henv h hi hl
    exact ⟨n1, fun n hn ctx hc hm => found_attempt (h1 n hn ctx hc hm)⟩
  | attemptRepair h ih => exact (ih hi hl).map fun n ctx hc hm hs => hs
  | label h ih => exact (ih hi hl).map fun n ctx hc hm hs => found_label hs
  | recover h ih => exact (ih hi hl).map fun n ctx hc hm hs => found_recover hs
  | recoverWithNo h hb ih =>
    exact (ih hi hl).map fun n ctx hc hm hs => found_recoverWith_no hb hs
  | recoverWith h hr ho ih =>
    exact (ih hi hl).map fun n ctx hc hm hs => found_recoverWith hi hc hr ho hs
  | recoverWithFnNo h hb ih =>
    exact (ih hi hl).map fun n ctx hc hm hs => found_recoverWithFn_no hb hs
  | recoverWithFn h hr ho hx ih =>
    exact (ih hi hl).map fun n ctx hc hm hs => found_recoverWithFn hi hc hr ho hx hs
  | recoverWithFnRaises h hr ho hx ih =>
    exact (ih hi hl).map fun n ctx hc hm hs => found_recoverWithFn_raises hr ho hx hs
  | block hcl h ih =>
    have hl' : D.layout := hl.elim id fun h => h.elim
    obtain ⟨n1, h1⟩ := ih hi (.inl hl')
    refine ⟨n1, fun n hn ctx hc hm => ?_⟩
    have hu := hc.updateLoc (Nat.le_refl _) hi
    exact found_block hi hc (h1 n hn _ (hu.setMark _) (hcol _ _ _ (hc.here hi hl').2 hcl))
  | aligned hcl h ih =>
    have hl' : D.layout := hl.elim id fun h => h.elim
    obtain ⟨n1, h1⟩ := ih hi (.inl hl')
    refine ⟨n1, fun n hn ctx hc hm => ?_⟩
    have hu := hc.updateLoc (Nat.le_refl _) hi
    have hmark := hcol _ _ _ (hc.here hi hl').2 hcl
    have hm' := fun j => (updateLoc_mark (s := s) ctx j).trans hm
    exact found_aligned ((hm' _).trans hmark.symm) (h1 n hn _ hu (hm' _))
  | @alignedNot α p m c i b w hcl hne =>
    have hl' : D.layout := hl.elim id fun h => h.elim
    refine .of fun n ctx hc hm => ?_
    have hh := hc.here hi hl'
    have hm' := fun j => (updateLoc_mark (s := s) ctx j).trans hm
    show Found D _ ctx _ _ _ ((alignedFns (denote env n p)).fn s i ctx k b w)
    simp only [alignedFns]
    rw [if_neg (by rw [hm', hcol _ _ _ hh.2 hcl]; exact fun h => hne h.symm)]
    exact .mk_rejects hh.1 rfl rfl
  | indented hcl hd h ih =>
    have hl' : D.layout := hl.elim id fun h => h.elim
    obtain ⟨n1, h1⟩ := ih hi (.inl hl')
    refine ⟨n1, fun n hn ctx hc hm => ?_⟩
    have hu := hc.updateLoc (Nat.le_refl _) hi
    have hmark := hcol _ _ _ (hc.here hi hl').2 hcl
    have hm' := fun j => (updateLoc_mark (s := s) ctx j).trans hm
    exact found_indented hi hc (by rw [hm', hmark]; exact hd) (h1 n hn _ (hu.setMark _) hmark)
  | @indentedNot α p delta m c i b w hcl hne =>
    have hl' : D.layout := hl.elim id fun h => h.elim
    refine .of fun n ctx hc hm => ?_
    have hh := hc.here hi hl'
    have hm' := fun j => (updateLoc_mark (s := s) ctx j).trans hm
    show Found D _ ctx _ _ _ ((indentedFns delta (denote env n p)).fn s i ctx k b w)
    simp only [indentedFns]
    rw [if_neg (by rw [hm', hcol _ _ _ hh.2 hcl]; exact hne)]
    exact .mk_rejects hh.1 rfl rfl
  | @ref x p m i b o w w' hx h ih =>
    obtain ⟨n1, h1⟩ := ih hi (henv.imp_right fun h => h x p hx)
    refine ⟨n1 + 1, fun n' hn ctx hc hm => ?_⟩
    obtain ⟨n, rfl⟩ : ∃ n, n' = n + 1 := ⟨n' - 1, by omega⟩
    show Found D _ ctx _ _ _ ((table env (n + 1) x).fn s i ctx k b w)
    unfold table
    rw [hx]
    exact h1 n (by omega) ctx hc hm
  | @refUndefined x m i b w hx =>
    refine ⟨1, fun n' hn ctx hc hm => ?_⟩
    obtain ⟨n, rfl⟩ : ∃ n, n' = n + 1 := ⟨n' - 1, by omega⟩
    show Found D _ ctx _ _ _ ((table env (n + 1) x).fn s i ctx k b w)
    unfold table
    rw [hx]
    exact .raises

end

end Eff

end Reparsec
