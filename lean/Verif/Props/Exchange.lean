import Verif.Lemmas.ConvRet
import Verif.Props.Laws
import Verif.Props.Monad
import Verif.Props.Delay
import Verif.Props.Label
import Verif.Props.Termination

/-!
# C84: parsers that behave in the same way can be exchanged, anywhere
-/

namespace Reparsec

variable {τ ρ : Type} {Γ : ρ → Type} {α : Type} [BEq τ]
  {env env' : Env τ ρ Γ} {p q : P τ ρ Γ α} {s : List τ} {o : Opts τ}

/-- **C84**: if parts of a parser, anywhere in it, are exchanged for parsers that behave in the same way, then it behaves
as before, in both modes. So the laws C16, C17, C18 (identities), C19, C20 and C21 may be used anywhere. -/
theorem C84_anywhere (h : Exchanged (fun _ => Same env) p q) : Same env p q :=
  (follows_exchanged (exchanged_mono (fun _ _ _ h => h.follows) h)).same
    (follows_exchanged (exchanged_mono (fun _ _ _ h => h.symm.follows) (exchanged_symm h)))

/-- **C84**: the same in the definitions of `Delay` objects, up to hanging: what the new program returns or raises, the
old one returned or raised. -/
theorem C84_definitions (hd : ExchangedDefs (fun _ => Same env) env env') (h : Exchanged (fun _ => Same env) p q)
    (s : List τ) (o : Opts τ) :
    (∀ r, Returns env' q s o r → Returns env p s o r) ∧ ∀ e, Raises env' q s o e → Raises env p s o e := by
  have h1 : Follows env' env q q :=
    follows_defs (exchangedDefs_mono (fun _ _ _ h => h.symm.follows) (exchangedDefs_symm hd)) q
  exact (h1.trans (C84_anywhere h).symm.follows).parse s o

theorem not_hangs_of_returns {r : Result τ α} (h : Returns env p s o r) : ¬ Hangs env p s o := by
  obtain ⟨n, hn⟩ := h
  intro hh
  have := hh n
  rw [hn] at this
  cases this

theorem not_hangs_of_raises {e : Exn} (h : Raises env p s o e) : ¬ Hangs env p s o := by
  obtain ⟨n, hn⟩ := h
  intro hh
  have := hh n
  rw [hn] at this
  cases this

theorem sameParse_of {env env' : Env τ ρ Γ} {p q : P τ ρ Γ α}
    (h : (∀ r, Returns env' q s o r → Returns env p s o r) ∧ ∀ e, Raises env' q s o e → Raises env p s o e)
    (hh : ¬ Hangs env' q s o) : SameParse env env' p q s o := by
  rcases run_cases env' q s o with ⟨r, hr⟩ | ⟨e, he⟩ | h'
  · have hr' := h.1 _ hr
    refine ⟨fun r' => ⟨fun h => returns_unique hr' h ▸ hr, h.1 r'⟩, fun e => ⟨fun h => ?_, h.2 e⟩,
      fun h => absurd h (not_hangs_of_returns hr'), fun h => absurd h hh⟩
    obtain ⟨n, hn⟩ := h.le
    obtain ⟨m, hm⟩ := hr'.le
    have e1 := hn (max n m) (by omega)
    rw [hm (max n m) (by omega)] at e1
    cases e1
  · have he' := h.2 _ he
    refine ⟨fun r => ⟨fun h => ?_, h.1 r⟩, fun e' => ⟨fun h => raises_unique he' h ▸ he, h.2 e'⟩,
      fun h => absurd h (not_hangs_of_raises he'), fun h => absurd h hh⟩
    obtain ⟨n, hn⟩ := h.le
    obtain ⟨m, hm⟩ := he'.le
    have e1 := hn (max n m) (by omega)
    rw [hm (max n m) (by omega)] at e1
    cases e1
  · exact absurd h' hh

/-- **C84**: and if the new program does not hang, it does the same as the old one. -/
theorem C84_ends (hd : ExchangedDefs (fun _ => Same env) env env') (h : Exchanged (fun _ => Same env) p q)
    (hh : ¬ Hangs env' q s o) : SameParse env env' p q s o :=
  sameParse_of (C84_definitions hd h s o) hh

/-- C84: in particular if the new grammar has no left recursion (C23). -/
theorem C84_no_left_recursion (hd : ExchangedDefs (fun _ => Same env) env env')
    (h : Exchanged (fun _ => Same env) p q) (hwf : WellFounded fun j i => LeftCalls env' i j)
    (s : List τ) (o : Opts τ) (hk : 0 ≤ o.maxInsertions) : SameParse env env' p q s o := by
  refine C84_ends hd h ?_
  rcases C23_terminates env' hwf q s o hk with ⟨r, hr⟩ | ⟨e, he⟩
  · exact not_hangs_of_returns hr
  · exact not_hangs_of_raises he

/-- **C84**: `Delay` objects may always be exchanged for what they are defined as, any number of them, anywhere, also in
the definitions. (In the definitions, for what they were defined as before.) -/
theorem C84_unfold (hd : ExchangedDefs (Unfolds env) env env') (h : Exchanged (Unfolds env) p q) (s : List τ)
    (o : Opts τ) : SameParse env env' p q s o := by
  have hs : ∀ (α : Type) (p q : P τ ρ Γ α), Unfolds env α p q → Same env p q := by
    rintro _ _ _ ⟨h⟩
    exact C21_behaves_as_definition env _ _ h
  have h1 := (follows_unfold hd h).parse s o
  have h2 := C84_definitions (exchangedDefs_mono hs hd) (exchanged_mono hs h) s o
  refine ⟨fun r => ⟨h1.1 r, h2.1 r⟩, fun e => ⟨h1.2 e, h2.2 e⟩, fun hh => ?_, fun hh => ?_⟩
  · rcases run_cases env' q s o with ⟨r, hr⟩ | ⟨e, he⟩ | h'
    · exact absurd hh (not_hangs_of_returns (h2.1 _ hr))
    · exact absurd hh (not_hangs_of_raises (h2.2 _ he))
    · exact h'
  · rcases run_cases env p s o with ⟨r, hr⟩ | ⟨e, he⟩ | h'
    · exact absurd hh (not_hangs_of_returns (h1.1 _ hr))
    · exact absurd hh (not_hangs_of_raises (h1.2 _ he))
    · exact h'

/-! ### With the associativity of `bind` -/

/-- **C84**: the same with the weaker relation of `C18_associativity`, whose laws may be used together with the others
(`Same` implies `SameReturns`): without recovery the parser behaves as before, with recovery it returns what it
returned before. -/
theorem C84_returns_anywhere (h : Exchanged (fun _ => SameReturns env) p q) : SameReturns env p q := by
  have h1 := followsR_exchanged (exchanged_mono (fun _ _ _ h => h.follows) h)
  have h2 := followsR_exchanged (exchanged_mono (fun _ _ _ h => h.symm.follows) (exchanged_symm h))
  exact ⟨fun s pos ctx o => Yields.iff (h1.plain s pos ctx) (h2.plain s pos ctx) o,
    fun s pos ctx ins rem r hp => ⟨h1.recovering s pos ctx ins rem r hp, h2.recovering s pos ctx ins rem r hp⟩⟩

/-- C84: in the definitions: what the new program returns, the old one returned. -/
theorem C84_returns_definitions (hd : ExchangedDefs (fun _ => SameReturns env) env env')
    (h : Exchanged (fun _ => SameReturns env) p q) (s : List τ) (o : Opts τ) (r : Result τ α)
    (hr : Returns env' q s o r) : Returns env p s o r := by
  have h1 : FollowsR env' env q q :=
    followsR_defs (exchangedDefs_mono (fun _ _ _ h => h.symm.follows) (exchangedDefs_symm hd)) q
  exact (h1.trans (C84_returns_anywhere h).symm.follows).parse s o r hr

namespace Samples

/-- `e.define(unexpected("a").label("e"))` -/
def foldEnv : Env Char Unit (fun _ => Unit) := fun _ => some (.label (.unexpected "a") "e")

/-- C84: folding can make a program hang: `e.label("e")` behaves as the definition of `e`; but if it is put in its place,
with `e.define(e.label("e"))`, `e` hangs (C23). So `C84_ends` needs that the new program ends. -/
theorem C84_fold_hangs (s : List Char) (o : Opts Char) :
    ExchangedDefs (fun _ => Same foldEnv) foldEnv loopEnv ∧ ¬ Hangs foldEnv (.ref ()) s o ∧
      Hangs loopEnv (.ref ()) s o := by
  have hs := C21_behaves_as_definition foldEnv () _ rfl
  refine ⟨fun i => .inr ⟨_, _, rfl, rfl, .part ?_⟩, ?_, C23_left_recursion_hangs s o⟩
  · exact (C20_label_label foldEnv _ "e" "e").symm.trans (C84_anywhere (.label "e" (.part hs.symm)))
  · rcases C22_terminates foldEnv (.label (.unexpected "a") "e") ⟨trivial, trivial⟩ s o with ⟨r, hr⟩ | ⟨e, n, he⟩
    · exact not_hangs_of_returns ((hs.returns o r).2 hr)
    · exact not_hangs_of_raises ((hs.symm.follows.parse s o).2 e ⟨n, he⟩)

/-- `parens.define((sym("(") >> parens << sym(")")).many())` -/
def parensEnv : Env Char Unit (fun _ => Unit) := fun _ =>
  some (.fmap (.many (.seql (.seqr (.sym '(' "'('") (.ref ())) (.sym ')' "')'"))) fun _ => .ok ())

/-- The same with `bind` for `<<`, and with the inner `parens` once unfolded and then mapped with the identity. -/
def parensEnv' : Env Char Unit (fun _ => Unit) := fun _ =>
  some (.fmap (.many (.bind (.seqr (.sym '(' "'('") (P.map (.ref ()) fun a => a)) fun a =>
    P.map (.sym ')' "')'") fun _ => a)) fun _ => .ok ())

/-- The hypotheses of `C84_definitions` are met by two laws at once: C16 around a part in which C17 is used. -/
example : ExchangedDefs (fun _ => Same parensEnv) parensEnv parensEnv' := fun _ =>
  .inr ⟨_, _, rfl, rfl, .fmap _ (.many (.part ((C16_seql _ _ _).trans (C84_anywhere
    (.bind (.seqWith _ (.keep _) (.part (C17_fmap_id _ _).symm)) fun _ => .keep _)))))⟩

/-- The hypotheses of `C84_returns_definitions` are met with `C18_associativity` in the definition of `parens`. -/
example : ∃ env', ExchangedDefs (fun _ => SameReturns parensEnv) parensEnv env' ∧
    env' () = some (.fmap (.many (.bind (.seqr (.sym '(' "'('") (.ref ())) fun a =>
      .bind (P.map (.sym ')' "')'") fun _ => a) fun b => .pure b)) fun _ => .ok ()) := by
  refine ⟨fun _ => _, fun _ => .inr ⟨_, _, rfl, rfl, .fmap _ (.many (.part ?_))⟩, rfl⟩
  refine ⟨fun s pos ctx o => ?_, fun s pos ctx ins rem r hp => ?_⟩
  · exact (((C16_seql _ _ _).trans (C18_right_identity parensEnv _).symm).plain s pos ctx o).trans
      ((C18_associativity parensEnv _ _ _).plain s pos ctx o)
  · exact (((C16_seql _ _ _).trans (C18_right_identity parensEnv _).symm).recovering s pos ctx ins rem _).trans
      ((C18_associativity parensEnv _ _ _).recovering s pos ctx ins rem r hp)

/-- `parens` with the definition of the inner `parens` in its place. -/
def parensUnfolded : Env Char Unit (fun _ => Unit) := fun _ =>
  some (.fmap (.many (.seql (.seqr (.sym '(' "'('") (.fmap (.many (.seql (.seqr (.sym '(' "'('") (.ref ()))
    (.sym ')' "')'"))) fun _ => .ok ())) (.sym ')' "')'"))) fun _ => .ok ())

/-- The hypotheses of `C84_unfold` are met. -/
example (s : List Char) (o : Opts Char) :
    SameParse parensEnv parensUnfolded (.seql (.ref ()) .eof) (.seql (.ref ()) .eof) s o :=
  C84_unfold (fun _ => .inr ⟨_, _, rfl, rfl, .fmap _ (.many (.seqWith _ (.seqWith _ (.keep _) (.part (.mk rfl)))
    (.keep _)))⟩) (.keep _) s o

end Samples

end Reparsec
