import Verif.Props.Race

/-!
# C68: executions
-/

namespace Reparsec

open Race (Delays State Reachable Later Sees ReturnsIn RaisesIn HangsIn Halfway Defining carefully
  anyhow everyone refIn)

variable {τ ρ : Type} {Γ : ρ → Type} {α : Type} {ι : Type}

/-- Thread `t` makes a move. -/
theorem Race.Later.go [DecidableEq ρ] [DecidableEq ι] {D : Env τ ρ Γ} {may : Race.Rule τ ρ Γ ι}
    {T : ι → Prop} {st0 st : State τ ρ Γ ι} (h : Later D may T st0 st) (t : ι) (ht : T t)
    {S' K' c'} (hm : Race.Move D (may st) st.delays st.objs (st.call t) S' K' c') :
    Later D may T st0 ⟨S', K', fun u => if u = t then c' else st.call u⟩ :=
  h.step t ht ⟨by simpa using hm, fun u hu => by simp [hu]⟩

/-- **C68.** A call of `define` that is not disturbed does, step by step, what it does in one step in
`Model/Delay.lean` (so that C21 says what comes of it). -/
theorem C68_alone [DecidableEq ρ] [DecidableEq ι] {D : Env τ ρ Γ} {st : State τ ρ Γ ι} {t : ι} {R}
    (hc : st.call t = .build R) {i : ρ} {e : P τ ρ Γ (Γ i)} {o : Obj τ ρ Γ (Γ i)}
    (hD : D i = some e) (ho : st.objs _ e o) (hi : st.delays.defined i = false)
    (hu : st.delays.fns i = undefinedP) :
    ∃ st', Later D anyhow (· = t) st st' ∧ st'.objs = st.objs ∧ (∃ R', st'.call t = .build R') ∧
      define (fun j => if st.delays.defined j then some (st.delays.fns j) else none) i o =
        .ok fun j => if st'.delays.defined j then some (st'.delays.fns j) else none := by
  have h1 := (Later.refl (D := D) (may := anyhow) (T := (· = t)) (st := st)).go t rfl
    (by rw [hc]; exact .check (may := anyhow st) hD ho hi)
  have h2 := h1.go t rfl (by simpa using Race.Move.mark)
  have h3 := h2.go t rfl (by simpa using Race.Move.get (by trivial))
  have h4 := h3.go t rfl (by simpa using Race.Move.assign)
  refine ⟨_, h4, rfl, ⟨Race.noCaptures, by simp⟩, ?_⟩
  have hfns : ∀ {β : Type} (o' : Obj τ ρ Γ β), Race.toFns (st.delays.mark i) o' =
      o'.toFns (Store.set (fun j => if st.delays.defined j then some (st.delays.fns j) else none) i
        undefinedP) := by
    intro β o'
    cases o' with
    | fn c => rfl
    | delay j =>
      by_cases hij : i = j
      · subst hij
        simp [Race.toFns, Obj.toFns, Race.Delays.mark, Store.set_self, hu]
      · simp only [Race.toFns, Obj.toFns, Race.Delays.mark, Store.set_ne _ _ hij, Ne.symm hij,
          if_false]
        cases st.delays.defined j <;> rfl
  unfold define
  simp only [hi, Bool.false_eq_true, if_false, Option.isSome_none, Except.ok.injEq]
  funext j
  by_cases hij : i = j
  · subst hij
    have hd : ((st.delays.mark i).assign i (Race.toFns (st.delays.mark i) o)).defined i = true := by
      simp [Race.Delays.assign, Race.Delays.mark]
    rw [Store.set_self, if_pos hd, Race.Delays.assign_self, hfns]
  · simp [Store.set_ne _ _ hij, Race.Delays.assign, Race.Delays.mark, hij, Ne.symm hij]

namespace Samples

/-- `e.define(sym("a"))` -/
def oneA : Env Char Unit (fun _ => Char) := fun _ => some (.sym 'a' "'a'")

/-- `e = Delay(); a = sym("a")` -/
theorem race_start {may : Race.Rule Char Unit (fun _ => Char) Bool} :
    Reachable oneA may ⟨.init, WithObj (WithObj (fun _ _ _ => False) (.ref ()) (.delay ()))
      (.sym 'a' "'a'") (.fn (.sym 'a' "'a'")), fun _ => .build Race.noCaptures⟩ := by
  have h1 := (Later.refl (D := oneA) (may := may) (T := everyone) (st := Race.start)).go true trivial
    (.made (.delay ()))
  have h2 := h1.go true trivial (.made (.sym 'a' "'a'"))
  have : (fun u : Bool => if u = true then Race.Call.build Race.noCaptures else
      if u = true then Race.Call.build Race.noCaptures else
        (Race.start (τ := Char) (ρ := Unit) (Γ := fun _ => Char)).call u) =
      fun _ => .build Race.noCaptures := by
    funext u; cases u <;> rfl
  rw [this] at h2
  exact h2

/-- The objects there are. -/
def raceObjs : Objects Char Unit (fun _ => Char) :=
  WithObj (WithObj (fun _ _ _ => False) (.ref ()) (.delay ())) (.sym 'a' "'a'")
    (.fn (.sym 'a' "'a'"))

/-- Thread `true` is halfway through `e.define(a)`. -/
def halfway : State Char Unit (fun _ => Char) Bool :=
  ⟨Delays.init.mark (), raceObjs, fun u =>
    if u = true then .marked () (.fn (.sym 'a' "'a'")) else .build Race.noCaptures⟩

theorem halfway_reachable {may : Race.Rule Char Unit (fun _ => Char) Bool} :
    Reachable oneA may halfway := by
  have h3 := race_start.go (may := may) true trivial (.check (i := ()) rfl .new rfl)
  have h4 := h3.go true trivial .mark
  have : (fun u : Bool => if u = true then Race.Call.marked (τ := Char) (ρ := Unit)
      (Γ := fun _ => Char) () (.fn (.sym 'a' "'a'")) else
      if u = true then Race.Call.checked () (.fn (.sym 'a' "'a'")) else
        .build Race.noCaptures) = fun u =>
      if u = true then .marked () (.fn (.sym 'a' "'a'")) else .build Race.noCaptures := by
    funext u; cases u <;> rfl
  rw [this] at h4
  exact h4

/-- The hypotheses of `C68_interrupted` are met there. -/
example (st' : State Char Unit (fun _ => Char) Bool)
    (hl : Later oneA anyhow (· ≠ true) halfway st') (s : List Char) (opts : Opts Char) :
    RaisesIn (fun _ => st'.delays) (.delay ()) s opts
      (.runtimeError "Delayed parser was not defined") :=
  (C68_interrupted () true rfl rfl (fun u hu => by
    cases u with
    | true => exact absurd rfl hu
    | false => simp [halfway]) hl).1 s opts

end Samples

open Samples in
/-- **C68**, a defect: a parser that is built from a `Delay` object by one thread, while another thread is
halfway through defining that, may raise "was not defined" forever, although all definitions have been
finished, and its expression parses. -/
theorem C68_captured : ∃ (D : Env Char Unit (fun _ => Char)) (st : State Char Unit (fun _ => Char) Bool)
    (o : Obj Char Unit (fun _ => Char) Char),
    Reachable D anyhow st ∧ (∀ i, st.delays.defined i = true ∧ ¬ Defining st i) ∧
    st.objs _ (.label (.ref ()) "n") o ∧
    (∀ seen, Sees D st seen → ∀ s opts, RaisesIn seen o s opts
      (.runtimeError "Delayed parser was not defined")) ∧
    (∀ gl, ∃ r, Returns D (.label (.ref ()) "n") ['a'] (plain gl) (.ok r)) := by
  have h5 := (halfway_reachable (may := anyhow)).go false trivial (.part (.old .new) trivial)
  have h6 := h5.go false trivial (.made (.label "n" .new))
  have h7 := h6.go true trivial (.get trivial)
  have h8 := h7.go true trivial .assign
  refine ⟨_, _, _, h8, fun i => ⟨rfl, ?_⟩, .new, ?_, fun gl => ⟨_, ⟨1, rfl⟩⟩⟩
  · rintro (⟨t, o, h⟩ | ⟨t, ⟨o, h⟩ | ⟨c, h⟩⟩) <;> cases t <;> simp at h
  · intro seen _ s opts
    refine ⟨1, ?_⟩
    unfold Race.parse
    cases opts.recover <;> rfl

open Samples in
/-- **C68**, a defect: two threads may both get past the check in `define`, so that neither call raises
"already defined". -/
theorem C68_two_defines : ∃ (D : Env Char Unit (fun _ => Char))
    (st : State Char Unit (fun _ => Char) Bool),
    Reachable D anyhow st ∧ (∃ o, st.call true = .checked () o) ∧ ∃ o, st.call false = .checked () o := by
  have h3 := (race_start (may := anyhow)).go true trivial (.check (i := ()) rfl .new rfl)
  have h4 := h3.go false trivial (.check (i := ()) rfl .new rfl)
  exact ⟨_, _, h4, ⟨_, rfl⟩, _, rfl⟩

namespace Samples

/-- Thread `true` has finished `e.define(a)`. -/
theorem defined_reachable {may : Race.Rule Char Unit (fun _ => Char) Bool}
    (hm : may halfway (Obj.fn (P.sym 'a' "'a'"))) :
    ∃ st, Reachable oneA may st ∧ st.objs = raceObjs ∧ ∀ i, st.delays.defined i = true ∧
      ¬ Defining st i := by
  have h5 := halfway_reachable.go true trivial (.get hm)
  have h6 := h5.go true trivial .assign
  refine ⟨_, h6, rfl, fun i => ⟨rfl, ?_⟩⟩
  rintro (⟨t, o, h⟩ | ⟨t, ⟨o, h⟩ | ⟨c, h⟩⟩) <;> cases t <;> simp [halfway] at h

/-- The hypotheses of `C68_exact` and `C68_settled` are met then. -/
example : ∃ st : State Char Unit (fun _ => Char) Bool, Reachable oneA carefully st ∧
    (∀ seen, Sees oneA st seen → ∀ s opts r,
      ReturnsIn seen (.delay ()) s opts r ↔ Returns oneA (.ref ()) s opts r) ∧
    (∀ s opts r, ReturnsIn (fun _ => st.delays) (.delay ()) s opts r ↔
      Returns (fun i => if st.delays.defined i then oneA i else none) (.ref ()) s opts r) := by
  obtain ⟨st, h, ho, hd⟩ := defined_reachable (may := carefully) trivial
  refine ⟨st, h, fun seen hs s opts r => ?_, fun s opts r => ?_⟩
  · refine (C68_exact h (ho ▸ .old .new) (fun _ => True) (fun i _ => hd i) (by simp [P.All, refIn])
      (fun i e _ he => ?_) hs s opts).1 r
    simp only [oneA, Option.some.injEq] at he
    subst he
    simp [P.All, refIn]
  · exact (C68_settled h (fun i hh => (hd i).2 (.inr hh)) (ho ▸ .old .new) s opts).1 r

/-- In the state `halfway` a parse sees, first, no definition, and then that by `a`: `C68_race` allows it to
raise "was not defined". -/
example (seen : Nat → Delays Char Unit (fun _ => Char)) (hs : Sees oneA halfway seen) (s opts r)
    (h : ReturnsIn seen (.delay ()) s opts r) : Returns oneA (.ref ()) s opts r :=
  (C68_race halfway_reachable (.old .new) hs s opts).1 r h

/-- Standing still is one thing that may happen. -/
example : Sees oneA halfway fun _ => halfway.delays :=
  ⟨fun _ => halfway, .refl, fun _ => .refl, fun _ => rfl⟩

end Samples

end Reparsec
