import Verif.Lemmas.RaceExact

/-!
# C68: defining `Delay` objects while other threads run, and being interrupted
-/

namespace Reparsec

open Race (Delays State Reachable Later Sees ReturnsIn RaisesIn HangsIn Halfway Defining carefully
  anyhow everyone refIn soFar)

variable {τ ρ : Type} {Γ : ρ → Type} {α : Type} {ι : Type} [DecidableEq ρ]

section
variable [BEq τ]

omit [BEq τ] in
theorem Race.Sees.made {D : Env τ ρ Γ} {st : State τ ρ Γ ι} (hi : Race.Inv D st)
    {seen : Nat → Delays τ ρ Γ} (hs : Sees D st seen) (n : Nat) (i : ρ) :
    (seen n).fns i = undefinedP ∨ Race.Made true D i ((seen n).fns i) := by
  obtain ⟨S, h0, h1, h2⟩ := hs
  have : ∀ n, Race.Inv D (S n) := by
    intro n
    induction n with
    | zero => exact hi.later h0
    | succ n ih => exact ih.later (h1 n)
  rw [h2 n]
  exact (this n).fns i

/-- **C68.** Any number of threads build parsers, define `Delay` objects (each by one expression), and
parse, in any order of their steps; some may have been interrupted anywhere. What a parser object does,
also while all this goes on, is what the expression it was built from does, every `Delay` object being
read as its definition; or it raises "was not defined". (So a parser never gives a result that comes from
half a definition.) -/
theorem C68_race {D : Env τ ρ Γ} {st : State τ ρ Γ ι} (h : Reachable D anyhow st)
    {e : P τ ρ Γ α} {o : Obj τ ρ Γ α} (ho : st.objs _ e o) {seen : Nat → Delays τ ρ Γ}
    (hs : Sees D st seen) (s : List τ) (opts : Opts τ) :
    (∀ r, ReturnsIn seen o s opts r → Returns D e s opts r) ∧
    (∀ x, RaisesIn seen o s opts x →
      x = .runtimeError "Delayed parser was not defined" ∨ Raises D e s opts x) ∧
    (HangsIn seen o s opts → Hangs D e s opts) := by
  have hi := h.inv
  have hx := (hi.objs _ _ ho).call
  have hm := hs.made hi
  refine ⟨?_, ?_, ?_⟩
  · rintro r ⟨n, hn⟩
    rcases Race.ev_parse hm n hx s opts.recover opts.maxInsertions opts.getLoc with h | h
    · rw [hn] at h; cases h
    · rw [hn] at h
      obtain ⟨N, hN⟩ := h (by simp)
      exact ⟨N, hN N (Nat.le_refl _)⟩
  · rintro x ⟨n, hn⟩
    rcases Race.ev_parse hm n hx s opts.recover opts.maxInsertions opts.getLoc with h | h
    · rw [hn] at h; cases h; exact .inl rfl
    · rw [hn] at h
      obtain ⟨N, hN⟩ := h (by simp)
      exact .inr ⟨N, hN N (Nat.le_refl _)⟩
  · intro hh n
    rcases Race.lo_parse hm n hx s opts.recover opts.maxInsertions opts.getLoc with h | h
    · rw [hh n] at h; cases h
    · rw [hh n] at h
      rcases h with h | h
      · exact h
      · exact h

omit [DecidableEq ρ] in
/-- **C68.** A parse that runs beside other threads does one thing: it returns one result, or raises one
exception, or recurses forever. -/
theorem C68_one_outcome (seen : Nat → Delays τ ρ Γ) (o : Obj τ ρ Γ α) (s : List τ) (opts : Opts τ) :
    ((∃ r, ReturnsIn seen o s opts r) ∨ (∃ x, RaisesIn seen o s opts x) ∨ HangsIn seen o s opts) ∧
    (∀ r r', ReturnsIn seen o s opts r → ReturnsIn seen o s opts r' → r = r') ∧
    (∀ x x', RaisesIn seen o s opts x → RaisesIn seen o s opts x' → x = x') ∧
    (∀ r x, ReturnsIn seen o s opts r → ¬ RaisesIn seen o s opts x) ∧
    (∀ r, ReturnsIn seen o s opts r → ¬ HangsIn seen o s opts) ∧
    (∀ x, RaisesIn seen o s opts x → ¬ HangsIn seen o s opts) := by
  have hm : Mono fun n => Race.parse seen n o s opts.recover opts.maxInsertions opts.getLoc :=
    fun n n' hn => Race.parse_le seen hn o s _ _ _
  obtain ⟨x, hx⟩ := Yields.total fun n =>
    Race.parse seen n o s opts.recover opts.maxInsertions opts.getLoc
  have hu : ∀ y, Yields _ y → x = y := fun y hy => Yields.unique hm hx hy
  refine ⟨?_, fun r r' h h' => ?_, fun e e' h h' => ?_, fun r e h h' => ?_, fun r h h' => ?_,
    fun e h h' => ?_⟩
  · cases x with
    | ret r => exact .inl ⟨r, hx⟩
    | raise e => exact .inr (.inl ⟨e, hx⟩)
    | diverge => exact .inr (.inr hx)
  · have := (hu (.ret r) h).symm.trans (hu (.ret r') h'); cases this; rfl
  · have := (hu (.raise e) h).symm.trans (hu (.raise e') h'); cases this; rfl
  · have := (hu (.ret r) h).symm.trans (hu (.raise e) h'); cases this
  · have := (hu (.ret r) h).symm.trans (hu .diverge h'); cases this
  · have := (hu (.raise e) h).symm.trans (hu .diverge h'); cases this

end

/-! ### Definitions that are finished -/

/-- The thread is in `i.define(...)`, after the check. -/
def Race.Inside (i : ρ) : Race.Call τ ρ Γ → Prop
  | .build _ => False
  | .checked j _ => j = i
  | .marked j _ => j = i
  | .got j _ => j = i

omit [DecidableEq ρ] in
theorem Race.defining_of {st : State τ ρ Γ ι} {i : ρ} {t : ι} (h : Race.Inside i (st.call t)) :
    Defining st i := by
  cases hc : st.call t with
  | build R => rw [hc] at h; exact h.elim
  | checked j o => rw [hc] at h; cases h; exact .inl ⟨t, o, hc⟩
  | marked j o => rw [hc] at h; cases h; exact .inr ⟨t, .inl ⟨o, hc⟩⟩
  | got j c => rw [hc] at h; cases h; exact .inr ⟨t, .inr ⟨c, hc⟩⟩

theorem Race.settled_move {D : Env τ ρ Γ} {may : {α : Type} → Obj τ ρ Γ α → Prop}
    {S S' : Delays τ ρ Γ} {K K' : Objects τ ρ Γ} {c c' : Race.Call τ ρ Γ} {i : ρ}
    (hm : Race.Move D may S K c S' K' c') (hd : S.defined i = true) (hn : ¬ Race.Inside i c) :
    S'.defined i = true ∧ ¬ Race.Inside i c' ∧ S'.fns i = S.fns i := by
  cases hm with
  | part hk hmay => exact ⟨hd, id, rfl⟩
  | made hb => exact ⟨hd, id, rfl⟩
  | refused h => exact ⟨hd, id, rfl⟩
  | @check _ j e o he hk hf => exact ⟨hd, (by rintro rfl; rw [hd] at hf; cases hf), rfl⟩
  | @mark j o => exact ⟨by simp [Race.Delays.mark, hd], hn, rfl⟩
  | get hmay => exact ⟨hd, hn, rfl⟩
  | @assign j c => exact ⟨hd, id, Race.Delays.assign_ne _ _ hn⟩

/-- If none of the threads in `T` is defining `i`, and `i` counts as defined, they will not change
it. -/
theorem Race.settled_later {D : Env τ ρ Γ} {may : Race.Rule τ ρ Γ ι} {T : ι → Prop}
    {st st' : State τ ρ Γ ι} {i : ρ} (hl : Later D may T st st') (hd : st.delays.defined i = true)
    (hn : ∀ t, T t → ¬ Race.Inside i (st.call t)) :
    st'.delays.defined i = true ∧ (∀ t, T t → ¬ Race.Inside i (st'.call t)) ∧
      st'.delays.fns i = st.delays.fns i := by
  induction hl with
  | refl => exact ⟨hd, hn, rfl⟩
  | step t _ ht hs ih =>
    obtain ⟨h1, h2, h3⟩ := ih
    obtain ⟨g1, g2, g3⟩ := Race.settled_move hs.1 h1 (h2 t ht)
    refine ⟨g1, fun u hu => ?_, g3.trans h3⟩
    by_cases hut : u = t
    · subst hut; exact g2
    · rw [hs.2 u hut]; exact h2 u hu

section
variable [BEq τ]

/-- **C68.** A program is careful if it does not build a parser from a `Delay` object while some thread is
halfway through defining that. In a careful program, let `X` be `Delay` objects whose definitions are
finished, so that these definitions, and the expression `e`, use no other `Delay` objects. Then a parser
built from `e` does exactly what `e` does, whatever the threads do in the meantime (and be it that they
stop being careful). -/
theorem C68_exact {D : Env τ ρ Γ} {st : State τ ρ Γ ι} (h : Reachable D carefully st)
    {e : P τ ρ Γ α} {o : Obj τ ρ Γ α} (ho : st.objs _ e o) (X : ρ → Prop)
    (hX : ∀ i, X i → st.delays.defined i = true ∧ ¬ Defining st i) (he : e.All (refIn X))
    (hD : ∀ i e', X i → D i = some e' → e'.All (refIn X)) {seen : Nat → Delays τ ρ Γ}
    (hs : Sees D st seen) (s : List τ) (opts : Opts τ) :
    (∀ r, ReturnsIn seen o s opts r ↔ Returns D e s opts r) ∧
    (∀ x, RaisesIn seen o s opts x ↔ Raises D e s opts x) ∧
    (HangsIn seen o s opts ↔ Hangs D e s opts) := by
  have hi := h.invC
  -- what the parse sees of `X` does not change
  have hseen : ∀ n i, X i → (seen n).fns i = st.delays.fns i := by
    obtain ⟨S, h0, h1, h2⟩ := hs
    intro n i hXi
    have key : ∀ n, (S n).delays.defined i = true ∧
        (∀ t, everyone t → ¬ Race.Inside i ((S n).call t)) ∧
        (S n).delays.fns i = st.delays.fns i := by
      intro n
      induction n with
      | zero =>
        exact Race.settled_later h0 (hX i hXi).1 fun t _ hin => (hX i hXi).2 (Race.defining_of hin)
      | succ n ih =>
        obtain ⟨g1, g2, g3⟩ := Race.settled_later (h1 n) ih.1 ih.2.1
        exact ⟨g1, g2, g3.trans ih.2.2⟩
    rw [h2 n]
    exact (key n).2.2
  have hD' : ∀ i e', X i → soFar D st.delays i = some e' → e'.All (refIn X) := by
    intro i e' hXi h'
    refine hD i e' hXi ?_
    simpa [soFar, (hX i hXi).1] using h'
  let σ : Store τ ρ Γ := Race.only X fun i => some (st.delays.fns i)
  let D1 : Env τ ρ Γ := Race.only X (soFar D st.delays)
  have hsome : ∀ i c, σ i = some c → X i ∧ st.delays.fns i = c := by
    intro i c hc
    simp only [σ, Race.only] at hc
    split at hc
    next hXi => exact ⟨hXi, by simpa using hc⟩
    · cases hc
  have hmade : ∀ i, X i → ∃ e', soFar D st.delays i = some e' ∧
      Exp false (soFar D st.delays) e' (st.delays.fns i) := by
    intro i hXi
    rcases hi.fns i (hX i hXi).1 with h' | ⟨e', h', hx⟩
    · exact absurd (.inr h') (hX i hXi).2
    · exact ⟨e', by simp [soFar, (hX i hXi).1, h'], hx⟩
  have ht : Tracks σ D1 := by
    constructor
    · intro i c hc
      obtain ⟨hXi, rfl⟩ := hsome i c hc
      obtain ⟨e', h1, h2⟩ := hmade i hXi
      refine ⟨e', ?_, (h2.only hD' (hD' i e' hXi h1)).1⟩
      simp only [D1, Race.only]
      rw [if_pos hXi]; exact h1
    · intro i hc
      simp only [D1, Race.only]
      split
      next hXi => simp [σ, Race.only, hXi] at hc
      · rfl
  obtain ⟨hx, hall⟩ := ((hi.objs _ _ ho).call).only hD' he
  have hrun : ∀ n, Race.parse seen n o s opts.recover opts.maxInsertions opts.getLoc =
      parse σ n o.call s opts.recover opts.maxInsertions opts.getLoc := by
    intro n
    refine Race.does_parse (X := X) (fun n i hXi => ?_) (fun i c hXi hc => ?_) n hall _ _ _ _
    · rw [hseen n i hXi]
      simp only [σ, Race.only]
      rw [if_pos hXi]; rfl
    · obtain ⟨_, rfl⟩ := hsome i c hc
      obtain ⟨e', h1, h2⟩ := hmade i hXi
      exact (h2.only hD' (hD' i e' hXi h1)).2
  have hcongr : ∀ n, denote D1 n e = denote D n e := by
    intro n
    refine Race.denote_congr (X := X) (fun i hXi => ?_) hD n he
    simp only [D1, Race.only]
    rw [if_pos hXi]
    simp [soFar, (hX i hXi).1]
  have key := Yields.of_le_conv
    (f := fun n => parse D n e s opts.recover opts.maxInsertions opts.getLoc)
    (g := fun n => Race.parse seen n o s opts.recover opts.maxInsertions opts.getLoc)
    (fun n => by
      rw [hrun]
      unfold parse
      rw [← hcongr]
      split
      · exact (hx.le ht n).2 _ _ _ _ _
      · exact Out.Le.bind ((hx.le ht n).1 _ _ _) fun _ => .refl _)
    (fun n => by
      rw [hrun]
      unfold parse
      simp only [← hcongr]
      split
      · exact (hx.conv ht n).fn _ _ _ _ _
      · exact Conv.bind ((hx.conv ht n).fast _ _ _) fun _ => .refl _)
  exact ⟨fun r => key (.ret r), fun x => key (.raise x), key .diverge⟩

/-- **C68.** In a careful program, when no thread is halfway through a definition, and as long as no thread
takes a step, every parser object does exactly what its expression does, with the `Delay` objects read
as the definitions they have so far. -/
theorem C68_settled {D : Env τ ρ Γ} {st : State τ ρ Γ ι} (h : Reachable D carefully st)
    (hn : ∀ i, ¬ Halfway st i) {e : P τ ρ Γ α} {o : Obj τ ρ Γ α} (ho : st.objs _ e o) (s : List τ)
    (opts : Opts τ) :
    (∀ r, ReturnsIn (fun _ => st.delays) o s opts r ↔
      Returns (fun i => if st.delays.defined i then D i else none) e s opts r) ∧
    (∀ x, RaisesIn (fun _ => st.delays) o s opts x ↔
      Raises (fun i => if st.delays.defined i then D i else none) e s opts x) ∧
    (HangsIn (fun _ => st.delays) o s opts ↔
      Hangs (fun i => if st.delays.defined i then D i else none) e s opts) := by
  have hi := h.invC
  let σ : Store τ ρ Γ := fun i => if st.delays.defined i then some (st.delays.fns i) else none
  have ht : Tracks σ (soFar D st.delays) := by
    constructor
    · intro i c hc
      simp only [σ] at hc
      split at hc
      next hd =>
        rcases hi.fns i hd with h' | ⟨e', h', hx⟩
        · exact absurd h' (hn i)
        · cases hc; exact ⟨e', by simp [soFar, hd, h'], hx⟩
      · cases hc
    · intro i hc
      simp only [σ] at hc
      split at hc
      · cases hc
      next hd => simp [soFar, hd]
  have hx := (hi.objs _ _ ho).call
  have all : ∀ {β : Type} (c : P τ ρ Γ β), c.All (refIn fun _ => True) := by
    intro β c
    induction c <;> simp_all [P.All, refIn]
  have hrun : ∀ n, Race.parse (fun _ => st.delays) n o s opts.recover opts.maxInsertions opts.getLoc =
      parse σ n o.call s opts.recover opts.maxInsertions opts.getLoc := by
    intro n
    refine Race.does_parse (X := fun _ => True) (fun n i _ => ?_) (fun i c _ _ => all c) n (all _)
      _ _ _ _
    simp only [σ]
    cases hd : st.delays.defined i with
    | true => rfl
    | false => exact hi.undef i hd
  have key := Yields.of_le_conv
    (f := fun n => parse (soFar D st.delays) n e s opts.recover opts.maxInsertions opts.getLoc)
    (g := fun n => Race.parse (fun _ => st.delays) n o s opts.recover opts.maxInsertions opts.getLoc)
    (fun n => by
      rw [hrun]
      unfold parse
      split
      · exact (hx.le ht n).2 _ _ _ _ _
      · exact Out.Le.bind ((hx.le ht n).1 _ _ _) fun _ => .refl _)
    (fun n => by
      rw [hrun]
      unfold parse
      split
      · exact (hx.conv ht n).fn _ _ _ _ _
      · exact Conv.bind ((hx.conv ht n).fast _ _ _) fun _ => .refl _)
  exact ⟨fun r => key (.ret r), fun x => key (.raise x), key .diverge⟩

/-- **C68**, a defect: if `i.define(...)` is interrupted between its two assignments (thread `t` takes no
more steps) and no other call of `i.define` was under way, then `i` can never be repaired: whatever the
other threads do, running it raises "was not defined", and every further call of `i.define` raises
"already defined" (no thread gets beyond the check). -/
theorem C68_interrupted {D : Env τ ρ Γ} {st : State τ ρ Γ ι} (i : ρ) (t : ι)
    (hd : st.delays.defined i = true) (hf : st.delays.fns i = Race.Delays.init.fns i)
    (hn : ∀ u, u ≠ t → (∀ o, st.call u ≠ .checked i o) ∧ (∀ o, st.call u ≠ .marked i o) ∧
      ∀ c, st.call u ≠ .got i c)
    {st' : State τ ρ Γ ι} (hl : Later D anyhow (· ≠ t) st st') :
    (∀ s opts, RaisesIn (fun _ => st'.delays) (.delay i) s opts
      (.runtimeError "Delayed parser was not defined")) ∧
    ∀ u st'', u ≠ t → Race.Step D anyhow u st' st'' → ∀ o, st''.call u ≠ .checked i o := by
  have hn' : ∀ u, u ≠ t → ¬ Race.Inside i (st.call u) := by
    intro u hu hin
    obtain ⟨h1, h2, h3⟩ := hn u hu
    cases hc : st.call u with
    | build R => rw [hc] at hin; exact hin
    | checked j o => rw [hc] at hin; cases hin; exact h1 o hc
    | marked j o => rw [hc] at hin; cases hin; exact h2 o hc
    | got j c => rw [hc] at hin; cases hin; exact h3 c hc
  obtain ⟨g1, g2, g3⟩ := Race.settled_later hl hd hn'
  refine ⟨fun s opts => ⟨1, ?_⟩, fun u st'' hu hs o ho => ?_⟩
  · have : st'.delays.fns i = undefinedP := g3.trans hf
    unfold Race.parse
    cases opts.recover <;>
      simp only [Race.denote, Obj.call, Race.embed, Eff.denoteWith, Race.table, this] <;> rfl
  · obtain ⟨_, h2, _⟩ := Race.settled_move hs.1 g1 (g2 u hu)
    rw [ho] at h2
    exact h2 rfl

end

end Reparsec
