import Verif.Lemmas.EffectsHalts
import Verif.Props.EffectsCost

/-!
# C79: with side effects, parsing with recovery ends
-/

namespace Reparsec.Eff

variable {σ τ ρ : Type} {Γ : ρ → Type} {α β : Type} [BEq τ]

/-- `p.parse(s, ..)`, called in world `w`, returns or raises. -/
def Finishes (env : Env σ τ ρ Γ) (p : P σ τ ρ Γ α) (s : List τ) (o : Opts τ) (w : World σ) : Prop :=
  ∃ w', (∃ r, Returns env p s o w r w') ∨ ∃ e, Raises env p s o w e w'

theorem finishes_of_ends {env : Env σ τ ρ Γ} {p : P σ τ ρ Γ α} {s : List τ} {o : Opts τ}
    {w : World σ}
    (h : EndsR env p s 0 (initCtx o.getLoc) o.maxInsertions (some o.maxInsertions) w) :
    Finishes env p s o w := by
  suffices h : ∃ n, parse env n p s o.recover o.maxInsertions o.getLoc w ≠ .diverge by
    obtain ⟨n, hn⟩ := h
    cases hx : parse env n p s o.recover o.maxInsertions o.getLoc w with
    | diverge => exact absurd hx hn
    | raise e w' => exact ⟨w', .inr ⟨e, n, hx⟩⟩
    | ret r w' => exact ⟨w', .inl ⟨r, n, hx⟩⟩
  cases hb : o.recover with
  | true =>
    obtain ⟨n, hn⟩ := h
    exact ⟨n, by simpa [parse] using hn n (Nat.le_refl _)⟩
  | false =>
    obtain ⟨n, hn⟩ := h.fast
    refine ⟨n, ?_⟩
    simp only [parse, Bool.false_eq_true, if_false, Act.bind_apply]
    exact run_bind_ne (hn n (Nat.le_refl _)) fun _ _ => by simp

/-- **C79**: if no chain of `Delay` objects, each of which may call the next one before anything is
consumed, goes on forever, then `p.parse(s, ..)` returns or raises, in both modes, with every
`max_insertions ≥ 0` and every `get_loc`, whatever the callbacks do to the state and however their results
depend on it. -/
theorem C79_terminates (env : Env σ τ ρ Γ) (hwf : WellFounded fun j i => LeftCalls env i j)
    (p : P σ τ ρ Γ α) (s : List τ) (o : Opts τ) (hk : 0 ≤ o.maxInsertions) (w : World σ) :
    Finishes env p s o w := by
  refine finishes_of_ends (endsAtR_all hwf s.length o.maxInsertions.toNat 0 (by omega) (Nat.zero_le _) p
    _ _ _ ⟨hk, ?_⟩ ?_)
  · rintro k ⟨⟩; exact ⟨hk, Int.le_refl _⟩
  · simp only [Option.getD_some]; omega

/-- **C79**, in the form in which one checks it. -/
theorem C79_no_left_recursion [Finite ρ] (env : Env σ τ ρ Γ) (h : ∀ i, ¬ LeftReaches env i i)
    (p : P σ τ ρ Γ α) (s : List τ) (o : Opts τ) (hk : 0 ≤ o.maxInsertions) (w : World σ) :
    Finishes env p s o w :=
  C79_terminates env (wf_of_no_left_recursion env h) p s o hk w

/-- **C79**: without `Delay` objects, with every `max_insertions`. -/
theorem C79_no_delay (env : Env σ τ ρ Γ) (p : P σ τ ρ Γ α) (h : p.NoDelay) (s : List τ) (o : Opts τ)
    (w : World σ) : Finishes env p s o w :=
  finishes_of_ends (endsR_noDelay p h _ _ _ _ (Nat.zero_le _))

/-! ### Samples -/

namespace Sample

example (s : List Char) (o : Opts Char) (hk : 0 ≤ o.maxInsertions) (w : World Nat) :
    Finishes env (.ref ()) s o w := C79_no_left_recursion env no_left_recursion _ s o hk w

/-- `((1`: the predicate is called on the digit once, and the two parentheses are inserted. -/
example : ∃ r w', Returns env (.ref ()) "((1".toList (recovering 5 defaultGetLoc) ⟨0, []⟩ r w' ∧
    r.unwrap defaultFmtLoc true = .ok '1' ∧ w'.calls.length = 1 := ⟨_, _, ⟨30, rfl⟩, rfl, rfl⟩

example (s : List Char) (o : Opts Char) (w : World (List Char)) : Finishes noEnv prog s o w :=
  C79_no_delay noEnv prog ⟨⟨⟨trivial, trivial⟩, trivial⟩, trivial⟩ s o w

end Sample

end Reparsec.Eff
