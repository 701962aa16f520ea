import Verif.Lemmas.EffectsCost
import Verif.Lemmas.EffectsRecoveryAll
import Verif.Lemmas.Throws

/-!
# With side effects, does the recovering mode end?

First: every candidate repair moves on, or uses up an insertion. Then rules for each combinator.
-/

namespace Reparsec.Eff

variable {σ τ ρ : Type} {Γ : ρ → Type} {α β γ : Type} {s : List τ}

/-- A candidate lies in the input, keeps to the budget, and moves on or uses up an insertion. -/
structure MovesC (s : List τ) (k : Int) (i : Nat) (b : Option Int) (stop : Nat) (left : Int) :
    Prop where
  lo : i ≤ stop
  hi : stop ≤ s.length
  nonneg : 0 ≤ left
  le : left ≤ k
  same : stop = i → left < b.getD 0

/-- So do all candidates of the finding. -/
def Moves (s : List τ) (k : Int) (i : Nat) (b : Option Int) : Finding α → Prop
  | .accepts _ j _ => i ≤ j ∧ j ≤ s.length
  | .repairs cs _ _ _ => RemOK k b → ∀ d ∈ cs, MovesC s k i b d.stop d.left
  | _ => True

section
variable {k : Int} {i : Nat} {b : Option Int}

theorem MovesC.ok {stop : Nat} {left : Int} (h : MovesC s k i b stop left) (hb : RemOK k b) :
    RemOK k (some left) := ⟨hb.1, fun x hx => by cases hx; exact ⟨h.nonneg, h.le⟩⟩

theorem moves_map {o : Finding α} (f : α → β) (h : Moves s k i b o) : Moves s k i b (o.map f) := by
  cases o with
  | repairs cs q x d =>
    intro hb z hz
    obtain ⟨c, hc, rfl⟩ := List.mem_map.1 hz
    exact h hb c hc
  | _ => exact h

theorem moves_after {o : Finding α} {j : Nat} {x : List String} (hij : i ≤ j)
    (h : Moves s k j (if i < j then some k else b) o) : Moves s k i b (o.after i j x) := by
  cases o with
  | accepts v l y => exact ⟨by have := h.1; omega, h.2⟩
  | repairs cs q y d =>
    intro hb z hz
    obtain ⟨c, hc, rfl⟩ := List.mem_map.1 hz
    by_cases hlt : i < j
    · simp only [hlt, if_true] at h
      have := h ⟨hb.1, fun x hx => by cases hx; exact ⟨hb.1, Int.le_refl _⟩⟩ c hc
      exact ⟨by have := this.lo; simp only [Cand.after]; omega, this.hi, this.nonneg, this.le,
        fun he => by have := this.lo; simp only [Cand.after] at he; omega⟩
    · have he : j = i := by omega
      subst he
      simp only [hlt, if_false] at h
      exact h hb c hc
  | _ => trivial

theorem moves_andThen {m : α → β → γ} {d : Cand α} {b' : Option Int} {o : Finding β} {z : Cand γ}
    (hd : MovesC s k i b d.stop d.left) (hb : RemOK k b) (hb' : b' = none ∨ b' = some d.left)
    (h : Moves s k d.stop b' o) (hz : z ∈ Cand.andThen k m d o) :
    MovesC s k i b z.stop z.left := by
  have hok : RemOK k b' := by
    rcases hb' with rfl | rfl
    · exact ⟨hb.1, by simp⟩
    · exact hd.ok hb
  have hle : b'.getD 0 ≤ d.left := by
    rcases hb' with rfl | rfl
    · simpa using hd.nonneg
    · simp
  have h1 := hd.lo
  have h2 := hd.same
  cases o with
  | accepts v j x =>
    simp only [Cand.andThen, List.mem_singleton] at hz
    subst hz
    obtain ⟨h3, h4⟩ := h
    refine ⟨by simp only; omega, h4, ?_, ?_, ?_⟩
    · simp only; split
      · exact hb.1
      · exact hd.nonneg
    · simp only; split
      · exact Int.le_refl _
      · exact hd.le
    · intro he
      simp only at he ⊢
      rw [if_neg (by omega)]
      exact h2 (by omega)
  | repairs cs q x e =>
    simp only [Cand.andThen, List.mem_map] at hz
    obtain ⟨c, hc, rfl⟩ := hz
    have h3 := h hok c hc
    refine ⟨by have := h3.lo; simp only; omega, h3.hi, h3.nonneg, h3.le, fun he => ?_⟩
    simp only at he ⊢
    have h4 := h3.lo
    have h5 := h3.same (by omega)
    have h6 := h2 (by omega)
    omega
  | rejects _ _ _ => simp [Cand.andThen] at hz
  | raises _ => simp [Cand.andThen] at hz

theorem moves_relabel {o : Finding α} {x : List String} (h : Moves s k i b o) :
    Moves s k i b (o.relabel i x) := by
  cases o with
  | repairs cs q y d =>
    intro hb z hz
    obtain ⟨c, hc, rfl⟩ := List.mem_map.1 hz
    exact h hb c hc
  | _ => exact h

theorem moves_promoted {o : Finding α} (h : Moves s k i b o) : Moves s k i b o.promoted := by
  cases o with
  | repairs cs q y d =>
    intro hb z hz
    obtain ⟨c, hc, rfl⟩ := List.mem_map.1 hz
    exact h hb c hc
  | _ => exact h

theorem moves_choice {o o' : Finding α} {q : Nat} {x : List String} (h : Moves s k i b o)
    (h' : Moves s k i b o') (ho : o.calm) : Moves s k i b (Finding.choice q x o o') := by
  have one : ∀ cs : List (Cand α), (RemOK k b → ∀ d ∈ cs, MovesC s k i b d.stop d.left) →
      RemOK k b → ∀ d ∈ cs.map (Cand.relabel x), MovesC s k i b d.stop d.left := by
    intro cs hcs hb z hz
    obtain ⟨c, hc, rfl⟩ := List.mem_map.1 hz
    exact hcs hb c hc
  cases o with
  | raises e => exact absurd ho id
  | repairs cs q1 x1 d1 =>
    cases o' with
    | raises e => trivial
    | repairs ds q2 x2 d2 =>
      refine one _ fun hb d hd => ?_
      rcases List.mem_append.1 hd with hd | hd
      · exact h hb d hd
      · exact h' hb d ((List.mem_filter.1 hd).1)
    | _ => exact one _ h
  | _ =>
    cases o' with
    | raises e => trivial
    | repairs ds q2 x2 d2 => exact one _ h'
    | _ => trivial

theorem movesC_insert {r : Int} (hi : i ≤ s.length) (hr : r ≠ 0) (hb : RemOK k (some r)) :
    MovesC s k i (some r) i (r - 1) := by
  obtain ⟨h1, h2⟩ := hb.2 r rfl
  exact ⟨Nat.le_refl _, hi, by omega, by omega, fun _ => by simp; omega⟩

theorem moves_orInsert {o : Finding α} {r : Int} {x : α} {l : String} (hi : i ≤ s.length)
    (hr : r ≠ 0) (h : Moves s k i (some r) o) : Moves s k i (some r) (o.orInsert r i x l) := by
  cases o with
  | rejects q y d =>
    cases d with
    | true => trivial
    | false =>
      intro hb z hz
      simp only [List.mem_singleton] at hz
      subst hz
      exact movesC_insert hi hr hb
  | repairs cs q y d =>
    cases d with
    | true => exact h
    | false =>
      intro hb z hz
      rcases List.mem_cons.1 hz with rfl | hz
      · exact movesC_insert hi hr hb
      · exact h hb z hz
  | _ => exact h

theorem movesC_skip {j : Nat} (hij : i < j) (hj : j ≤ s.length) (hb : RemOK k b) :
    MovesC s k i b j k := ⟨by omega, hj, hb.1, Int.le_refl _, fun he => by omega⟩

theorem movesC_insertions {r : Int} {x : α} {l : String} (hi : i ≤ s.length) (hb : RemOK k (some r))
    {z : Cand α} (hz : z ∈ insertions r i x l) : MovesC s k i (some r) z.stop z.left := by
  unfold insertions at hz
  split at hz
  · simp at hz
  · simp only [List.mem_singleton] at hz
    subst hz
    exact movesC_insert hi (by assumption) hb

end

theorem prefix_le [BEq τ] {x : List τ} {j : Nat} (h : x.isPrefixOf (s.drop j) = true) :
    x.length ≤ s.length - j := by
  have : ∀ (x l : List τ), x.isPrefixOf l = true → x.length ≤ l.length := by
    intro x
    induction x with
    | nil => intro l _; simp
    | cons a x ih =>
      intro l h
      cases l with
      | nil => simp [List.isPrefixOf] at h
      | cons c l =>
        simp only [List.isPrefixOf, Bool.and_eq_true] at h
        have := ih l h.2
        simp; omega
  have := this x (s.drop j) h
  simpa using this

/-- Every candidate repair moves on, or uses up an insertion. -/
theorem rec_moves [BEq τ] {env : Env σ τ ρ Γ} {col : Nat → Nat → Prop} {k : Int}
    {p : P σ τ ρ Γ α} {m i : Nat} {b : Option Int} {w w' : World σ} {o : Finding α}
    (h : Rec env s col k p m i b w o w') : i ≤ s.length → Moves s k i b o := by
  have lt : ∀ {j : Nat} {t : τ}, s[j]? = some t → j < s.length := fun h =>
    (List.getElem?_eq_some_iff.1 h).1
  have weaken : ∀ {α : Type} {i : Nat} {b : Option Int} {o : Finding α}, Moves s k i none o →
      Moves s k i b o := by
    intro α i b o h
    cases o with
    | repairs cs q x d =>
      intro hb c hc
      have := h ⟨hb.1, by simp⟩ c hc
      exact ⟨this.lo, this.hi, this.nonneg, this.le, fun he => by
        have h1 := this.same he; have h2 := this.nonneg; simp at h1; omega⟩
    | _ => exact h
  have all : ∀ {α β γ : Type} {i : Nat} {b : Option Int} {cs : List (Cand α)} {os : List (Finding β)}
      {merge : α → β → γ} {q : Nat} {x : List String} {e : Bool} (B : Cand α → Option Int),
      (∀ c, B c = none ∨ B c = some c.left) →
      Moves s k i b (.repairs cs q x e) →
      (∀ (n : Nat) (d : Cand α) o, cs[n]? = some d → os[n]? = some o → d.stop ≤ s.length →
        Moves s k d.stop (B d) o) → Moves s k i b (.repairs (andThenAll k merge cs os) q x e) := by
    intro α β γ i b cs os merge q x e B hB h1 h2 hb z hz
    obtain ⟨n, d, o, g1, g2, g3⟩ := mem_andThenAll hz
    have hd := h1 hb d (List.mem_of_getElem? g1)
    exact moves_andThen hd hb (hB d) (h2 n d o g1 g2 hd.hi) g3
  induction h with
  | pure | pureFn | eof => exact fun hi => ⟨Nat.le_refl _, hi⟩
  | pureFnRaises | unexpected | eofNot | satisfyRaises | satisfyNot | satisfyEnd | satisfyNever
  | satisfySkipRaises | symNot | literalNot | regexpRaises | regexpNot | regexpNever
  | regexpSkipRaises | fmapRaises | fmapRejects | fmapRaised | fmapRepairsRaises | altNeither
  | altRepairRaises | bindRejects | bindRaised | bindRaises | bindRepairsRaises | seqRejects
  | seqRaised | seqRepairsRaises | manyRejects | manyRaised | manyEmpty | manyRepairsRaises
  | recoverWithFnRaises | alignedNot | indentedNot | refUndefined => exact fun _ => trivial
  | eofSkip h =>
    intro hi hb z hz
    simp only [List.mem_singleton] at hz
    subst hz
    simp only [Cand.skipRest]
    exact movesC_skip (by omega) (Nat.le_refl _) hb
  | satisfy h _ => intro hi; have := lt h; exact ⟨by omega, by omega⟩
  | satisfySkip h1 _ h2 _ =>
    intro hi hb z hz
    simp only [List.mem_singleton] at hz
    subst hz
    have := lt h2
    exact movesC_skip (j := _) (by simp only [Cand.skip]; omega) (by simp only [Cand.skip]; omega) hb
  | sym h _ => intro hi; have := lt h; exact ⟨by omega, by omega⟩
  | symSkip h1 _ h2 _ =>
    intro hi hb z hz
    rcases List.mem_append.1 hz with hz | hz
    · exact movesC_insertions hi hb hz
    · simp only [List.mem_singleton] at hz
      subst hz
      have := lt h2
      exact movesC_skip (j := _) (by simp only [Cand.skip]; omega) (by simp only [Cand.skip]; omega) hb
  | symNever => exact fun hi hb z hz => movesC_insertions hi hb hz
  | literal h => intro hi; have := prefix_le h; exact ⟨by omega, by omega⟩
  | literalSkip h1 h2 h3 =>
    rename_i x l hx m i j r w
    intro hi hb z hz
    rcases List.mem_append.1 hz with hz | hz
    · exact movesC_insertions hi hb hz
    · simp only [List.mem_singleton] at hz
      subst hz
      have h4 := prefix_le h3
      have h5 := List.length_pos_iff.2 hx
      exact movesC_skip (j := _) (by simp only [Cand.skip]; omega) (by simp only [Cand.skip]; omega) hb
  | literalNever => exact fun hi hb z hz => movesC_insertions hi hb hz
  | regexp h => intro hi; exact Matcher.bounds _ _ _ _ _ hi h
  | regexpSkip h1 h2 _ h3 =>
    intro hi hb z hz
    simp only [List.mem_singleton] at hz
    subst hz
    have := Matcher.bounds _ _ _ _ _ (Nat.le_of_lt h2) h3
    exact movesC_skip (by simp only [Cand.skip]; omega) this.2 hb
  | fmap _ _ ih => exact ih
  | fmapRepairs _ hl _ ih =>
    intro hi hb z hz
    obtain ⟨n, hn⟩ := List.mem_iff_getElem?.1 hz
    rw [List.getElem?_zipWith] at hn
    split at hn
    · rename_i d v hd hv
      cases hn
      exact ih hi hb d (List.mem_of_getElem? hd)
    · cases hn
  | altFirst _ ih => exact ih
  | altFinal _ _ ih => exact fun hi => weaken (ih hi)
  | altSecond _ _ _ ih => exact ih
  | altSecondFinal _ _ _ _ ih => exact fun hi => weaken (ih hi)
  | altRepair _ _ _ h4 _ _ _ ih1 ih2 => exact fun hi => moves_choice (ih1 hi) (ih2 hi) h4
  | bind _ _ _ ih1 ih2 => exact fun hi => moves_after (ih1 hi).1 (ih2 (ih1 hi).2)
  | bindRepairs _ _ _ _ ih1 ih2 =>
    exact fun hi => all (fun d => some d.left) (fun _ => .inr rfl) (ih1 hi)
      fun n d o h1 h2 h3 => ih2 n d o h1 h2 h3
  | seq _ _ ih1 ih2 => exact fun hi => moves_after (ih1 hi).1 (moves_map _ (ih2 (ih1 hi).2))
  | seqRepairs _ _ _ _ ih1 ih2 =>
    exact fun hi => all (fun d => some d.left) (fun _ => .inr rfl) (ih1 hi)
      fun n d o h1 h2 h3 => ih2 n d o h1 h2 h3
  | maybe _ ih => exact ih
  | maybeNone => exact fun hi => ⟨Nat.le_refl _, hi⟩
  | maybeFinal _ _ ih => exact fun hi => moves_map _ (weaken (ih hi))
  | @manyItem _ _ _ i b _ j _ o _ _ _ _ hij _ ih1 ih2 =>
    intro hi
    refine moves_map _ ?_
    have := ih2 (ih1 hi).2
    cases o with
    | accepts v l x => exact ⟨by have := this.1; omega, this.2⟩
    | repairs cs q x d =>
      intro hb c hc
      have := this ⟨hb.1, by simp⟩ c hc
      exact ⟨by have := this.lo; omega, this.hi, this.nonneg, this.le, fun he => by
        have := this.lo; omega⟩
    | _ => trivial
  | manyEnd => exact fun hi => ⟨Nat.le_refl _, hi⟩
  | manyRepairs _ _ _ _ ih1 ih2 =>
    exact fun hi => all (fun _ => none) (fun _ => .inl rfl) (weaken (ih1 hi))
      fun n d o h1 h2 h3 => ih2 n d o h1 h2 h3
  | @attempt _ _ _ _ o _ _ h =>
    intro hi
    rcases o with ⟨v, j, x⟩ | (⟨q, x, d⟩ | e)
    · exact eval_pos h hi
    · trivial
    · trivial
  | attemptRepair _ ih => exact ih
  | label _ ih => exact fun hi => moves_relabel (ih hi)
  | recover _ ih => exact fun hi => moves_promoted (ih hi)
  | recoverWithNo _ _ ih => exact ih
  | recoverWith _ hr _ ih => exact fun hi => moves_orInsert hi hr (ih hi)
  | recoverWithFnNo _ _ ih => exact ih
  | recoverWithFn _ hr _ _ ih => exact fun hi => moves_orInsert hi hr (ih hi)
  | block _ _ ih => exact ih
  | aligned _ _ ih => exact ih
  | indented _ _ _ ih => exact ih
  | ref _ _ ih => exact ih

/-! ### With enough fuel -/

/-- With enough fuel the computation ends. -/
def EvR (f : Nat → Run σ α) : Prop := ∃ n, ∀ m, n ≤ m → f m ≠ .diverge

/-- More fuel does not change an outcome. -/
def MonoR (f : Nat → Run σ α) : Prop := ∀ n n', n ≤ n' → (f n).Le (f n')

theorem EvR.const {o : Run σ α} (h : o ≠ .diverge) : EvR (fun _ => o) := ⟨0, fun _ _ => h⟩

theorem EvR.ret {a : α} {w : World σ} : EvR (fun _ => .ret a w) := .const (by simp)

theorem EvR.raise {e : Exn} {w : World σ} : EvR (fun _ => (.raise e w : Run σ α)) := .const (by simp)

theorem EvR.congr {f g : Nat → Run σ α} (h : ∀ n, f n = g n) (hf : EvR f) : EvR g := by
  have : f = g := funext h
  rwa [← this]

theorem EvR.mono {f g : Nat → Run σ α} (h : ∀ n, (f n).Le (g n)) (hf : EvR f) : EvR g := by
  obtain ⟨n, hn⟩ := hf
  exact ⟨n, fun m hm => by rw [(h m).eq (hn m hm)]; exact hn m hm⟩

theorem EvR.succ {f : Nat → Run σ α} (hf : EvR fun n => f (n + 1)) : EvR f := by
  obtain ⟨n, hn⟩ := hf
  refine ⟨n + 1, fun m hm => ?_⟩
  obtain ⟨m, rfl⟩ : ∃ k, m = k + 1 := ⟨m - 1, by omega⟩
  exact hn m (by omega)

theorem EvR.bind {f : Nat → Run σ α} {g : Nat → α → Act σ β} (hm : MonoR f) (hf : EvR f)
    (hg : ∀ a w n, f n = .ret a w → EvR (fun n => g n a w)) : EvR (fun n => (f n).bind (g n)) := by
  obtain ⟨n, hn⟩ := hf
  have h0 := hn n (Nat.le_refl _)
  have up : ∀ m, n ≤ m → f m = f n := fun m h => (hm n m h).eq h0
  cases h1 : f n with
  | diverge => exact absurd h1 h0
  | raise e w =>
    refine ⟨n, fun m h => ?_⟩
    simp only [up m h, h1]; simp [Run.bind]
  | ret a w =>
    obtain ⟨k, hk⟩ := hg a w n h1
    refine ⟨max n k, fun m h => ?_⟩
    simp only [up m (by omega), h1]
    exact hk m (by omega)

/-- Calling a callback ends. -/
theorem EvR.call (c : Callback σ α β) (a : α) (w : World σ) {g : Nat → β → Act σ γ}
    (h : ∀ b w', c.call a w = .ret b w' → EvR (fun n => g n b w')) :
    EvR (fun n => (c.call a w).bind (g n)) :=
  EvR.bind (f := fun _ => c.call a w) (fun _ _ _ => .refl _) (.const (call_ne c a w))
    fun b w' _ hb => h b w' hb

theorem EvR.contReps {ins : Int} {k : Nat → α → Nat → Ctx τ → Int → Act σ (Result τ β)}
    {merge : α → β → γ} (l : List (Repair τ α))
    (hm : ∀ v p c r w, MonoR fun n => k n v p c r w)
    (h : ∀ r ∈ l, ∀ w, EvR fun n => k n r.value r.pos r.ctx r.ins w) (w : World σ) :
    EvR fun n => Eff.contReps ins (k n) merge l w := by
  induction l generalizing w with
  | nil => exact .ret
  | cons r rs ih =>
    simp only [Eff.contReps, Act.bind_apply]
    refine EvR.bind (hm _ _ _ _ _) (h r List.mem_cons_self w) fun rb w1 _ _ => ?_
    simp only [Act.bind_apply]
    refine EvR.bind (f := fun n => Eff.contReps ins (k n) merge rs w1) ?_
      (ih (fun r hr => h r (List.mem_cons_of_mem _ hr)) w1) fun _ _ _ _ => .ret
    exact fun n n' hn => contReps_le (fun v p c r w => hm v p c r w n n' hn) rs w1

theorem EvR.continueParse {ra : Recovered τ α} {ins : Int}
    {k : Nat → α → Nat → Ctx τ → Int → Act σ (Result τ β)}
    {merge : α → β → γ} (hm : ∀ v p c r w, MonoR fun n => k n v p c r w)
    (h : ∀ r ∈ ra.repairs, ∀ w, EvR fun n => k n r.value r.pos r.ctx r.ins w) (w : World σ) :
    EvR fun n => Eff.continueParse ra ins (k n) merge w := by
  simp only [Eff.continueParse, Act.bind_apply]
  refine EvR.bind (f := fun n => Eff.contReps ins (k n) merge ra.repairs w) ?_
    (EvR.contReps _ hm h w) fun _ _ _ _ => .ret
  exact fun n n' hn => contReps_le (fun v p c r w => hm v p c r w n n' hn) _ w

section
variable [BEq τ] {env : Env σ τ ρ Γ} {i : Nat} {ctx : Ctx τ} {k : Int} {b : Option Int}
  {w w' : World σ}

theorem mono_fn (env : Env σ τ ρ Γ) (p : P σ τ ρ Γ α) (s : List τ) (i : Nat) (ctx : Ctx τ)
    (k : Int) (b : Option Int) (w : World σ) :
    MonoR fun n => (denote env n p).fn s i ctx k b w :=
  fun _ _ hn => (denote_le env hn p).2 s i ctx k b w

theorem mono_fast (env : Env σ τ ρ Γ) (p : P σ τ ρ Γ α) (s : List τ) (i : Nat) (ctx : Ctx τ)
    (w : World σ) : MonoR fun n => (denote env n p).fast s i ctx w :=
  fun _ _ hn => (denote_le env hn p).1 s i ctx w

/-- Running `p` here, with recovery, ends. -/
def EndsR (env : Env σ τ ρ Γ) (p : P σ τ ρ Γ α) (s : List τ) (i : Nat) (ctx : Ctx τ) (k : Int)
    (b : Option Int) (w : World σ) : Prop :=
  EvR fun n => (denote env n p).fn s i ctx k b w

theorem EndsR.fast {p : P σ τ ρ Γ α} (h : EndsR env p s i ctx k b w) :
    EvR fun n => (denote env n p).fast s i ctx w := by
  obtain ⟨n, hn⟩ := h
  exact ⟨n, fun m hm hf => hn m hm ((sim_denote env m p).diverge hf _ _)⟩

/-- What a success in recovering mode tells. -/
theorem fn_ok {p : P σ τ ρ Γ α} {n : Nat} {r : Ok τ α} (hi : i ≤ s.length)
    (h : (denote env n p).fn s i ctx k b w = .ret (.ok r) w') :
    i ≤ r.pos ∧ r.pos ≤ s.length ∧ r.consumed = decide (i < r.pos) ∧
      (r.pos = i → CanBeEmpty env p r.value) := by
  have h1 : (denote env n p).fast s i ctx w = .ret (.ok r) w' := by
    cases hf : (denote env n p).fast s i ctx w with
    | diverge => rw [(sim_denote env n p).diverge hf] at h; cases h
    | raise e w1 => rw [(sim_denote env n p).raise hf] at h; cases h
    | ret x w1 =>
      cases x with
      | ok r' => rw [(sim_denote env n p).ok hf] at h; cases h; rfl
      | error e => exact absurd h ((sim_denote env n p).not_ok hf)
  obtain ⟨o, w1, h2, h3⟩ := eval_denote env (anyDisc ctx.getLocFn s) p (.inl trivial) n i ctx w hi
    ⟨rfl, trivial⟩ (by rw [h1]; simp)
  rw [h1] at h3
  cases h3 with
  | accepts hc hf =>
    exact ⟨hf.lo, hf.hi, hf.consumed, fun he => ⟨s, _, _, i, w, _, w', hi, he ▸ h2⟩⟩

/-- What repairs tell. -/
theorem fn_recovered {p : P σ τ ρ Γ α} {n : Nat} {r : Recovered τ α} (hi : i ≤ s.length)
    (hb : RemOK k b) (h : (denote env n p).fn s i ctx k b w = .ret (.recovered r) w') :
    ∀ x ∈ r.repairs, MovesC s k i b x.pos x.ins := by
  obtain ⟨o, w1, h2, h3⟩ := rec_denote env (anyDisc ctx.getLocFn s) k p (.inl trivial) n i ctx b w hi
    ⟨rfl, trivial⟩ (by rw [h]; simp)
  rw [h] at h3
  rcases h3.cases with ⟨e, rfl⟩ | ⟨v, j, x, rfl⟩ | ⟨q, x, d, rfl⟩ | ⟨cs, q, x, d, rfl⟩
  · have := h3.inv_raises; cases this
  · obtain ⟨_, h4, -⟩ := h3.inv_accepts; cases h4
  · obtain ⟨_, h4, -⟩ := h3.inv_rejects; cases h4
  · obtain ⟨r', h4, -, -, -, h5, -⟩ := h3.inv_repairs
    cases h4
    have h6 := rec_moves h2 hi hb
    clear h2 h3 h
    intro x hx
    revert h6 x hx
    generalize r.repairs = rs at h5
    intro h6
    induction h5 with
    | nil => simp
    | cons hs _ ih =>
      intro x hx
      rcases List.mem_cons.1 hx with rfl | hx
      · have := h6 _ List.mem_cons_self
        rwa [hs.stop, hs.left] at this
      · exact ih (fun d hd => h6 d (List.mem_cons_of_mem _ hd)) x hx

theorem fn_frame {p : P σ τ ρ Γ α} {n : Nat} {r : Recovered τ α} (hi : i ≤ s.length)
    (h : (denote env n p).fn s i ctx k b w = .ret (.recovered r) w') :
    ∀ x ∈ r.repairs, x.pos ≤ s.length ∧ (b = none → i < x.pos) := by
  obtain ⟨o, w1, h2, h3⟩ := rec_denote env (anyDisc ctx.getLocFn s) k p (.inl trivial) n i ctx b w hi
    ⟨rfl, trivial⟩ (by rw [h]; simp)
  rw [h] at h3
  cases h3 with
  | ret _ hf =>
    have hf : RecFrame .. := hf
    exact fun x hx => ⟨(hf.reps x hx).hi, (hf.reps x hx).lt⟩

omit [BEq τ] in
theorem repairsFmap_ne (c : Callback σ α β) (l : List (Repair τ α)) (w : World σ) :
    repairsFmap c l w ≠ .diverge := by
  induction l generalizing w with
  | nil => simp [repairsFmap]
  | cons r rs ih =>
    simp only [repairsFmap, Act.bind_apply]
    refine call_bind_ne _ _ _ fun v w' => ?_
    simp only [Act.bind_apply]
    exact run_bind_ne (ih w') fun _ _ => by simp

theorem EndsR.fmap {p : P σ τ ρ Γ α} {c : Callback σ α β} (h : EndsR env p s i ctx k b w) :
    EndsR env (.fmap p c) s i ctx k b w := by
  show EvR fun n => fmapFn (denote env n p) c s i ctx k b w
  simp only [fmapFn, Act.bind_apply]
  refine EvR.bind (mono_fn _ _ _ _ _ _ _ _) h fun a w1 _ _ => ?_
  cases a with
  | ok r => exact .const (by simp only [Act.bind_apply]; exact call_bind_ne _ _ _ fun _ _ => by simp)
  | error e => exact .ret
  | recovered r =>
    exact .const (by
      simp only [Act.bind_apply]; exact run_bind_ne (repairsFmap_ne _ _ _) fun _ _ => by simp)

theorem EndsR.bind {ι : Type} {p : P σ τ ρ Γ α} {c : Callback σ α ι} {g : ι → P σ τ ρ Γ β}
    (h : EndsR env p s i ctx k b w)
    (hok : ∀ n ra w1, (denote env n p).fn s i ctx k b w = .ret (.ok ra) w1 →
      ∀ x w2, c.call ra.value w1 = .ret x w2 →
        EndsR env (g x) s ra.pos ra.ctx k (if ra.consumed then some k else b) w2)
    (hrec : ∀ n ra w1, (denote env n p).fn s i ctx k b w = .ret (.recovered ra) w1 →
      ∀ r ∈ ra.repairs, ∀ x w2, EndsR env (g x) s r.pos r.ctx k (some r.ins) w2) :
    EndsR env (.bind p c g) s i ctx k b w := by
  show EvR fun n => bindFn (denote env n p) (fun a => do
    let x ← c.call a
    return denote env n (g x)) s i ctx k b w
  simp only [bindFn, Act.bind_apply]
  refine EvR.bind (mono_fn _ _ _ _ _ _ _ _) h fun a w1 n hn => ?_
  have next : ∀ {v : α} {j c' b' w1}, (∀ x w2, c.call v w1 = .ret x w2 →
      EndsR env (g x) s j c' k b' w2) → EvR fun n =>
      (do
        let f ← (do
          let x ← c.call v
          return denote env n (g x))
        f.fn s j c' k b' : Act σ (Result τ β)) w1 := by
    intro v j c' b' w1 hx
    simp only [Act.bind_apply, Run.bind_assoc]
    exact EvR.call _ _ _ fun x w2 hc => by
      simp only [Act.pure_apply, Run.bind_ret]
      exact hx x w2 hc
  cases a with
  | error e => exact .ret
  | recovered ra =>
    refine EvR.continueParse (k := fun n v p c' r => do
      let f ← (do
        let x ← c.call v
        return denote env n (g x))
      f.fn s p c' k (some r)) ?_ ?_ w1
    · intro v j c' r w1 n n' hn
      simp only [Act.bind_apply, Run.bind_assoc]
      refine Run.Le.bind (.refl _) fun x w2 => ?_
      exact (denote_le env hn (g x)).2 s j c' k (some r) w2
    · exact fun r hr w2 => next fun x w3 _ => hrec n ra w1 hn r hr x w3
  | ok ra =>
    have := hok n ra w1 hn
    simp only [Act.bind_apply, Run.bind_assoc]
    refine EvR.call _ _ _ fun x w2 hx => ?_
    simp only [Act.pure_apply, Run.bind_ret, Act.bind_apply]
    exact EvR.bind (mono_fn _ _ _ _ _ _ _ _) (this x w2 hx) fun _ _ _ _ => .ret

theorem EndsR.alt {p q : P σ τ ρ Γ α} (hp0 : ∀ w, EndsR env p s i ctx k none w)
    (hq0 : ∀ w, EndsR env q s i ctx k none w) (hp : ∀ w, EndsR env p s i ctx k b w)
    (hq : ∀ w, EndsR env q s i ctx k b w) : EndsR env (.alt p q) s i ctx k b w := by
  have hrec : ∀ loc ex w, EvR fun n =>
      altRecover (denote env n p) (denote env n q) s i ctx k b loc ex w := by
    intro loc ex w
    unfold altRecover
    cases b with
    | none => exact .ret
    | some r =>
      simp only [Act.bind_apply]
      refine EvR.bind (mono_fn _ _ _ _ _ _ _ _) (hp w) fun a w1 _ _ => ?_
      simp only [Act.bind_apply]
      refine EvR.bind (mono_fn _ _ _ _ _ _ _ _) (hq w1) fun b w2 _ _ => ?_
      cases a <;> cases b <;> exact .ret
  have hsec : ∀ loc ex w, EvR fun n =>
      altSecond (denote env n p) (denote env n q) s i ctx k b loc ex w := by
    intro loc ex w
    simp only [altSecond, Act.bind_apply]
    refine EvR.bind (mono_fn _ _ _ _ _ _ _ _) (hq0 w) fun b w1 _ _ => ?_
    cases b with
    | ok r => simp only [Act.ite_apply]; split <;> exact .ret
    | error e => simp only [Act.ite_apply]; split; exact .ret; exact hrec _ _ _
    | recovered r => simp only [Act.ite_apply]; split; exact .ret; exact hrec _ _ _
  show EvR fun n => altFn (denote env n p) (denote env n q) s i ctx k b w
  simp only [altFn, Act.bind_apply]
  refine EvR.bind (mono_fn _ _ _ _ _ _ _ _) (hp0 w) fun a w1 _ _ => ?_
  cases a with
  | ok r => exact .ret
  | error e => simp only [Act.ite_apply]; split; exact .ret; exact hsec _ _ _
  | recovered r => simp only [Act.ite_apply]; split; exact .ret; exact hsec _ _ _

theorem EndsR.seqWith {p : P σ τ ρ Γ α} {q : P σ τ ρ Γ β} {m : α → β → γ}
    (h : EndsR env p s i ctx k b w)
    (hok : ∀ n ra w1, (denote env n p).fn s i ctx k b w = .ret (.ok ra) w1 →
      EndsR env q s ra.pos ra.ctx k (if ra.consumed then some k else b) w1)
    (hrec : ∀ n ra w1, (denote env n p).fn s i ctx k b w = .ret (.recovered ra) w1 →
      ∀ r ∈ ra.repairs, ∀ w2, EndsR env q s r.pos r.ctx k (some r.ins) w2) :
    EndsR env (.seqWith p q m) s i ctx k b w := by
  show EvR fun n => seqFn (denote env n p) (denote env n q) m s i ctx k b w
  simp only [seqFn, Act.bind_apply]
  refine EvR.bind (mono_fn _ _ _ _ _ _ _ _) h fun a w1 n hn => ?_
  cases a with
  | error e => exact .ret
  | recovered ra =>
    exact EvR.continueParse (k := fun n _ p c r => (denote env n q).fn s p c k (some r))
      (fun v p c r w => mono_fn _ _ _ _ _ _ _ _) (fun r hr w2 => hrec n ra w1 hn r hr w2) w1
  | ok ra =>
    simp only [Act.bind_apply]
    exact EvR.bind (mono_fn _ _ _ _ _ _ _ _) (hok n ra w1 hn) fun _ _ _ _ => .ret

theorem EndsR.maybe {p : P σ τ ρ Γ α} (h : EndsR env p s i ctx k none w) :
    EndsR env (.maybe p) s i ctx k b w := by
  show EvR fun n => maybeFn (denote env n p) s i ctx k b w
  simp only [maybeFn, Act.bind_apply]
  refine EvR.bind (mono_fn _ _ _ _ _ _ _ _) h fun a _ _ _ => ?_
  cases a with
  | ok r => exact .ret
  | error e => simp only [Act.ite_apply]; split <;> exact .ret
  | recovered r => simp only [Act.ite_apply]; split <;> exact .ret

/-- A `many` loop ends if its body does, from here on: each iteration, and each repair, moves on. -/
theorem EndsR.many {p : P σ τ ρ Γ α}
    (h : ∀ j ctx w, i ≤ j → j ≤ s.length → EndsR env p s j ctx k none w)
    (hi : i ≤ s.length) : EndsR env (.many p) s i ctx k b w := by
  show EvR fun n => manyLoop (denote env n p).fn s k n i ctx false [] w
  have key : ∀ d i ctx c v w, (∀ j ctx w, i ≤ j → j ≤ s.length →
      EndsR env p s j ctx k none w) → i ≤ s.length → s.length - i < d →
      EvR fun n => manyLoop (denote env n p).fn s k n i ctx c v w := by
    intro d
    induction d with
    | zero => intro _ _ _ _ _ _ _ hd; omega
    | succ d ih =>
      intro i ctx c v w h hi hd
      have step : ∀ j ctx' c v w, i < j → j ≤ s.length →
          EvR fun n => manyLoop (denote env (n + 1) p).fn s k n j ctx' c v w := by
        intro j ctx' c v w h1 h2
        refine EvR.mono (fun n => ?_) (ih j ctx' c v w (fun _ _ _ h3 => h _ _ _ (by omega)) h2
          (by omega))
        exact manyLoop_le (denote_le env (Nat.le_succ n) p).2 s k (Nat.le_refl _) _ _ _ _ _
      refine EvR.succ ?_
      simp only [manyLoop, Act.bind_apply]
      refine EvR.bind (f := fun n => (denote env (n + 1) p).fn s i ctx k none w) ?_ ?_ ?_
      · exact fun n n' hn => (denote_le env (by omega : n + 1 ≤ n' + 1) p).2 _ _ _ _ _ _
      · obtain ⟨n, hn⟩ := h i ctx w (Nat.le_refl _) hi
        exact ⟨n, fun m hm => hn _ (by omega)⟩
      · intro a w1 n hn
        cases a with
        | ok r =>
          obtain ⟨-, h2, h3, -⟩ := fn_ok hi hn
          cases hc : r.consumed with
          | true =>
            simp only [if_true, hc]
            have hlt : i < r.pos := by simpa [hc] using h3.symm
            exact step _ _ _ _ _ hlt h2
          | false => simp only [hc, Bool.false_eq_true, if_false]; exact .raise
        | error e => simp only [Act.ite_apply]; split <;> exact .ret
        | recovered r =>
          have hfr := fn_frame hi hn
          refine EvR.continueParse
            (k := fun n _ p' c _ => manyLoop (denote env (n + 1) p).fn s k n p' c false []) ?_ ?_ w1
          · intro v p' c r w n n' hn
            exact manyLoop_le (denote_le env (by omega : n + 1 ≤ n' + 1) p).2 s k hn _ _ _ _ _
          · intro x hx w2
            obtain ⟨h4, h5⟩ := hfr x hx
            exact step _ _ _ _ _ (h5 rfl) h4
  exact key _ i ctx false [] w h hi (Nat.lt_succ_self _)

theorem EndsR.attempt {p : P σ τ ρ Γ α} (h : EndsR env p s i ctx k b w) :
    EndsR env (.attempt p) s i ctx k b w := by
  show EvR fun n => attemptFn (denote env n p) s i ctx k b w
  unfold attemptFn
  cases b with
  | some r => exact h
  | none =>
    simp only [Act.bind_apply]
    refine EvR.bind (mono_fast _ _ _ _ _ _) h.fast fun a _ _ _ => ?_
    cases a <;> exact .ret

theorem EndsR.label {p : P σ τ ρ Γ α} {x : String} (h : EndsR env p s i ctx k b w) :
    EndsR env (.label p x) s i ctx k b w := by
  show EvR fun n => ((denote env n p).fn s i ctx k b w).bind fun r => pure (r.setExpected [x])
  exact EvR.bind (mono_fn _ _ _ _ _ _ _ _) h fun _ _ _ _ => .ret

theorem EndsR.recover {p : P σ τ ρ Γ α} (h : EndsR env p s i ctx k b w) :
    EndsR env (.recover p) s i ctx k b w := by
  show EvR fun n => recoverFn (denote env n p) s i ctx k b w
  simp only [recoverFn, Act.bind_apply]
  refine EvR.bind (mono_fn _ _ _ _ _ _ _ _) h fun a _ _ _ => ?_
  cases a <;> exact .ret

theorem EndsR.recoverWithFn {p : P σ τ ρ Γ α} {c lbl} (h : EndsR env p s i ctx k b w) :
    EndsR env (.recoverWithFn p c lbl) s i ctx k b w := by
  show EvR fun n => recoverWithFnFn (denote env n p) c lbl s i ctx k b w
  unfold recoverWithFnFn
  cases b with
  | none => exact h
  | some r =>
    simp only [Act.bind_apply]
    refine EvR.bind (mono_fn _ _ _ _ _ _ _ _) h fun a w1 _ _ => ?_
    cases a with
    | ok r => exact .ret
    | error e =>
      simp only [Act.ite_apply]
      split
      · exact .ret
      · split
        · exact .const (by simp only [Act.bind_apply]; exact call_bind_ne _ _ _ fun _ _ => by simp)
        · exact .ret
    | recovered r =>
      simp only [Act.ite_apply]
      split
      · exact .ret
      · split
        · exact .const (by simp only [Act.bind_apply]; exact call_bind_ne _ _ _ fun _ _ => by simp)
        · exact .ret

theorem EndsR.recoverWith {p : P σ τ ρ Γ α} {x : α} {vs : String} (h : EndsR env p s i ctx k b w) :
    EndsR env (.recoverWith p x vs) s i ctx k b w := by
  show EvR fun n => Eff.recoverWithFn (denote env n p) x vs s i ctx k b w
  unfold Eff.recoverWithFn
  cases b with
  | none => exact h
  | some r =>
    simp only [Act.bind_apply]
    refine EvR.bind (mono_fn _ _ _ _ _ _ _ _) h fun a w1 _ _ => ?_
    cases a with
    | ok r => exact .ret
    | error e =>
      simp only [Act.ite_apply]
      split
      · exact .ret
      · split <;> exact .ret
    | recovered r =>
      simp only [Act.ite_apply]
      split
      · exact .ret
      · split <;> exact .ret

theorem EndsR.block {p : P σ τ ρ Γ α} (h : ∀ ctx, EndsR env p s i ctx k b w) :
    EndsR env (.block p) s i ctx k b w := by
  show EvR fun n => (blockFns (denote env n p)).fn s i ctx k b w
  simp only [blockFns, Act.bind_apply]
  exact EvR.bind (mono_fn _ _ _ _ _ _ _ _) (h _) fun _ _ _ _ => .ret

theorem EndsR.aligned {p : P σ τ ρ Γ α} (h : ∀ ctx, EndsR env p s i ctx k b w) :
    EndsR env (.aligned p) s i ctx k b w := by
  show EvR fun n => (alignedFns (denote env n p)).fn s i ctx k b w
  simp only [alignedFns, Act.ite_apply]
  split
  · exact h _
  · exact .ret

theorem EndsR.indented {p : P σ τ ρ Γ α} {d : Int} (h : ∀ ctx, EndsR env p s i ctx k b w) :
    EndsR env (.indented d p) s i ctx k b w := by
  show EvR fun n => (indentedFns d (denote env n p)).fn s i ctx k b w
  simp only [indentedFns, Act.ite_apply]
  split
  · exact EvR.bind (mono_fn _ _ _ _ _ _ _ _) (h _) fun _ _ _ _ => .ret
  · exact .ret

theorem EndsR.ref_undefined {x : ρ} (h : env x = none) : EndsR env (.ref x) s i ctx k b w := by
  refine EvR.succ ?_
  show EvR fun n => (table env (n + 1) x).fn s i ctx k b w
  simp only [table, h, undefinedFns]
  exact .raise

theorem EndsR.ref_defined {x : ρ} {p : P σ τ ρ Γ (Γ x)} (h : env x = some p)
    (hp : EndsR env p s i ctx k b w) : EndsR env (.ref x) s i ctx k b w := by
  refine EvR.succ ?_
  show EvR fun n => (table env (n + 1) x).fn s i ctx k b w
  simp only [table, h]
  exact hp

theorem endsR_lift {g : Reparsec.ParseFns τ α} {q : P σ τ ρ Γ α}
    (hq : ∀ n, denote env n q = lift g) (hg : g.fn s i ctx k b ≠ .diverge) :
    EndsR env q s i ctx k b w := by
  refine ⟨0, fun m _ => ?_⟩
  simp only [hq, lift, liftOut]
  cases h : g.fn s i ctx k b with
  | diverge => exact absurd h hg
  | raise e => simp
  | ret a => simp

theorem EndsR.pureFn {c : Callback σ Unit α} : EndsR env (.pureFn c) s i ctx k b w :=
  .const (call_bind_ne c () w fun _ _ => by simp)

omit [BEq τ] in
theorem scanTest_ne (c : Callback σ τ Bool) (n j : Nat) (w : World σ) :
    scanTest c s n j w ≠ .diverge := by
  induction n generalizing j w with
  | zero => simp [scanTest]
  | succ n ih =>
    simp only [scanTest, Act.bind_apply]
    refine run_bind_ne ?_ fun a w' => ?_
    · simp only [testAt]
      cases s[j]? with
      | none => simp
      | some t => exact call_bind_ne _ _ _ fun _ _ => by simp
    · cases a with
      | none => exact ih _ _
      | some t => simp

theorem EndsR.satisfy {c : Callback σ τ Bool} : EndsR env (.satisfy c) s i ctx k b w := by
  refine .const ?_
  show satisfyFn c s i ctx k b w ≠ _
  simp only [satisfyFn, Act.bind_apply]
  refine run_bind_ne ?_ fun a w' => ?_
  · simp only [testAt]
    cases s[i]? with
    | none => simp
    | some t => exact call_bind_ne _ _ _ fun _ _ => by simp
  · cases a with
    | some t => simp
    | none =>
      cases b with
      | none => simp
      | some r =>
        simp only [Act.bind_apply]
        refine run_bind_ne (scanTest_ne _ _ _ _) fun a w' => ?_
        rcases a with _ | ⟨_, _⟩ <;> simp

/-! ### Everything ends -/

/-- Running `p` at `i` with at most `c` insertions left ends. -/
def EndsAtR (env : Env σ τ ρ Γ) (s : List τ) (k : Int) (i c : Nat) (p : P σ τ ρ Γ α) : Prop :=
  ∀ ctx b w, RemOK k b → b.getD 0 ≤ (c : Int) → EndsR env p s i ctx k b w

theorem endsAtR_struct {i c : Nat} (hi : i ≤ s.length)
    (hfar : ∀ {β : Type} (q : P σ τ ρ Γ β) j c', i < j → j ≤ s.length → EndsAtR env s k j c' q)
    (hless : ∀ {β : Type} (q : P σ τ ρ Γ β) c', c' < c → EndsAtR env s k i c' q)
    (p : P σ τ ρ Γ α) (href : ∀ x, p.StartsWith env x → EndsAtR env s k i c (.ref x)) :
    EndsAtR env s k i c p := by
  have none' : ∀ {b}, RemOK k b → RemOK k none := fun h => ⟨h.1, by simp⟩
  have prim : ∀ {β : Type} {g : Reparsec.P τ Empty (fun _ => Unit) β} {f : Reparsec.ParseFns τ β}
      {ctx : Ctx τ} {b : Option Int}, (∀ n, Reparsec.denote env0 n g = f) →
      Reparsec.Ends env0 g s i ctx k b → f.fn s i ctx k b ≠ .diverge := by
    intro β g f ctx b hf h
    obtain ⟨n, h⟩ := h
    rw [← hf n]; exact h n (Nat.le_refl _)
  -- what comes after a success
  have hok : ∀ {β γ : Type} (p : P σ τ ρ Γ β) (q : P σ τ ρ Γ γ) ctx b w n ra w1 w2, RemOK k b →
      b.getD 0 ≤ (c : Int) → (denote env n p).fn s i ctx k b w = .ret (.ok ra) w1 →
      (CanBeEmpty env p ra.value → EndsAtR env s k i c q) →
      EndsR env q s ra.pos ra.ctx k (if ra.consumed then some k else b) w2 := by
    intro β γ p q ctx b w n ra w1 w2 hr hb hn hq
    obtain ⟨h1, h2, h3, h4⟩ := fn_ok hi hn
    cases hc : ra.consumed with
    | true =>
      have hlt : i < ra.pos := by simpa [hc] using h3.symm
      refine hfar q ra.pos k.toNat hlt h2 _ _ _ ⟨hr.1, ?_⟩ ?_
      · simp only [if_true]; rintro k ⟨⟩; exact ⟨hr.1, Int.le_refl _⟩
      · simp only [if_true, Option.getD_some]; omega
    | false =>
      have hge : ¬ i < ra.pos := by simpa [hc] using h3.symm
      have he : ra.pos = i := by omega
      simp only [Bool.false_eq_true, if_false]
      have := hq (h4 he)
      rw [he]
      exact this _ _ _ hr hb
  -- what comes after a repair
  have hrec : ∀ {β γ : Type} (p : P σ τ ρ Γ β) (q : P σ τ ρ Γ γ) ctx b w n ra w1, RemOK k b →
      b.getD 0 ≤ (c : Int) → (denote env n p).fn s i ctx k b w = .ret (.recovered ra) w1 →
      ∀ r ∈ ra.repairs, ∀ w2, EndsR env q s r.pos r.ctx k (some r.ins) w2 := by
    intro β γ p q ctx b w n ra w1 hr hb hn r hm w2
    have h1 := fn_recovered hi hr hn r hm
    have h0 := h1.nonneg
    by_cases he : r.pos = i
    · have := h1.same he
      rw [he]
      exact hless q r.ins.toNat (by omega) _ _ _ (h1.ok hr) (by simp only [Option.getD_some]; omega)
    · have := h1.lo
      exact hfar q r.pos r.ins.toNat (by omega) h1.hi _ _ _ (h1.ok hr) (by simp only [Option.getD_some]; omega)
  induction p with
  | pure x =>
    exact fun _ _ _ _ _ => endsR_lift (fun _ => rfl) (prim (g := .pure x) (fun _ => rfl) .pure)
  | pureFn x => exact fun _ _ _ _ _ => .pureFn
  | unexpected x =>
    exact fun _ _ _ _ _ => endsR_lift (fun _ => rfl)
      (prim (g := .unexpected x) (fun _ => rfl) .unexpected)
  | eof => exact fun _ _ _ _ _ => endsR_lift (fun _ => rfl) (prim (g := .eof) (fun _ => rfl) .eof)
  | satisfy test => exact fun _ _ _ _ _ => .satisfy
  | sym x l =>
    exact fun _ _ _ _ _ => endsR_lift (fun _ => rfl) (prim (g := .sym x l) (fun _ => rfl) .sym)
  | literal x l hx =>
    exact fun _ _ _ _ _ => endsR_lift (fun _ => rfl)
      (prim (g := .literal x l hx) (fun _ => rfl) .literal)
  | regexp m =>
    exact fun _ _ _ _ _ => endsR_lift (fun _ => rfl) (prim (g := .regexp m) (fun _ => rfl) .regexp)
  | fmap p fn ih => exact fun ctx b w hr hb => (ih href _ _ _ hr hb).fmap
  | alt p q ihp ihq =>
    intro ctx b w hr hb
    have h1 := ihp fun x hx => href x (.inl hx)
    have h2 := ihq fun x hx => href x (.inr hx)
    exact EndsR.alt (fun w => h1 _ _ w (none' hr) (by simp)) (fun w => h2 _ _ w (none' hr) (by simp))
      (fun w => h1 _ _ w hr hb) fun w => h2 _ _ w hr hb
  | bind p cb g ihp ihk =>
    intro ctx b w hr hb
    refine EndsR.bind (ihp (fun x hx => href x (.inl hx)) _ _ _ hr hb)
      (fun n ra w1 hn x w2 hx => ?_)
      (fun n ra w1 hn r hm x w2 => hrec p _ ctx b w n ra w1 hr hb hn r hm w2)
    refine hok p _ ctx b w n ra w1 w2 hr hb hn fun he => ihk x fun y hy =>
      href y (.inr ⟨ra.value, w1.state, x, he, ?_, hy⟩)
    simp only [Callback.call] at hx
    split at hx
    · rename_i z hz; cases hx; exact hz
    · cases hx
  | seqWith p q m ihp ihq =>
    intro ctx b w hr hb
    refine EndsR.seqWith (ihp (fun x hx => href x (.inl hx)) _ _ _ hr hb) (fun n ra w1 hn => ?_)
      (fun n ra w1 hn r hm w2 => hrec p _ ctx b w n ra w1 hr hb hn r hm w2)
    exact hok p _ ctx b w n ra w1 w1 hr hb hn fun he => ihq fun x hx => href x (.inr ⟨⟨_, he⟩, hx⟩)
  | maybe p ih =>
    exact fun ctx b w hr hb => (ih href _ _ _ (none' hr) (by simp)).maybe
  | many p ih =>
    intro ctx b w hr hb
    refine EndsR.many (fun j ctx' w' h1 h2 => ?_) hi
    by_cases he : j = i
    · subst he
      exact ih href _ _ _ (none' hr) (by simp)
    · exact hfar p j 0 (by omega) h2 _ _ _ (none' hr) (by simp)
  | attempt p ih => exact fun ctx b w hr hb => (ih href _ _ _ hr hb).attempt
  | label p x ih => exact fun ctx b w hr hb => (ih href _ _ _ hr hb).label
  | recover p ih => exact fun ctx b w hr hb => (ih href _ _ _ hr hb).recover
  | recoverWith p x vs ih => exact fun ctx b w hr hb => (ih href _ _ _ hr hb).recoverWith
  | recoverWithFn p fn lbl ih => exact fun ctx b w hr hb => (ih href _ _ _ hr hb).recoverWithFn
  | block p ih => exact fun ctx b w hr hb => EndsR.block fun _ => ih href _ _ _ hr hb
  | aligned p ih => exact fun ctx b w hr hb => EndsR.aligned fun _ => ih href _ _ _ hr hb
  | indented d p ih => exact fun ctx b w hr hb => EndsR.indented fun _ => ih href _ _ _ hr hb
  | ref x => exact href x rfl

/-- Without left recursion everything ends, everywhere, with every budget. -/
theorem endsAtR_all (hwf : WellFounded fun j i => LeftCalls env i j) :
    ∀ (d c i : Nat), s.length - i ≤ d → i ≤ s.length →
      ∀ {α : Type} (p : P σ τ ρ Γ α), EndsAtR env s k i c p := by
  have main : ∀ (c i : Nat), i ≤ s.length →
      (∀ {β : Type} (q : P σ τ ρ Γ β) j c', i < j → j ≤ s.length → EndsAtR env s k j c' q) →
      (∀ {β : Type} (q : P σ τ ρ Γ β) c', c' < c → EndsAtR env s k i c' q) →
      ∀ {α : Type} (p : P σ τ ρ Γ α), EndsAtR env s k i c p := by
    intro c i hi hfar hless α p
    have href : ∀ x, EndsAtR env s k i c (.ref x : P σ τ ρ Γ (Γ x)) := fun x => by
      induction x using hwf.induction with
      | _ x ih =>
        intro ctx b w hr hb
        cases he : env x with
        | none => exact .ref_undefined he
        | some q =>
          exact .ref_defined he (endsAtR_struct hi hfar hless q (fun j hj => ih j ⟨q, he, hj⟩)
            ctx b w hr hb)
    exact endsAtR_struct hi hfar hless p fun x _ => href x
  intro d
  induction d with
  | zero =>
    intro c
    induction c using Nat.strongRecOn with
    | ind c ihc =>
      intro i hd hi α p
      exact main c i hi (fun q j c' h1 h2 => by omega) (fun q c' h => ihc c' h i hd hi q) p
  | succ d ihd =>
    intro c
    induction c using Nat.strongRecOn with
    | ind c ihc =>
      intro i hd hi α p
      exact main c i hi (fun q j c' h1 h2 => ihd c' j (by omega) h2 q)
        (fun q c' h => ihc c' h i hd hi q) p

/-- Without `Delay` everything ends, with every budget. -/
theorem endsR_noDelay (p : P σ τ ρ Γ α) (h : p.NoDelay) : ∀ i ctx b w, i ≤ s.length →
    EndsR env p s i ctx k b w := by
  have prim : ∀ {β : Type} {g : Reparsec.P τ Empty (fun _ => Unit) β} {f : Reparsec.ParseFns τ β}
      {i : Nat} {ctx : Ctx τ} {b : Option Int}, (∀ n, Reparsec.denote env0 n g = f) →
      Reparsec.Ends env0 g s i ctx k b → f.fn s i ctx k b ≠ .diverge := by
    intro β g f i ctx b hf h
    obtain ⟨n, h⟩ := h
    rw [← hf n]; exact h n (Nat.le_refl _)
  induction p with
  | pure x =>
    exact fun _ _ _ _ _ => endsR_lift (fun _ => rfl) (prim (g := .pure x) (fun _ => rfl) .pure)
  | pureFn x => exact fun _ _ _ _ _ => .pureFn
  | unexpected x =>
    exact fun _ _ _ _ _ => endsR_lift (fun _ => rfl)
      (prim (g := .unexpected x) (fun _ => rfl) .unexpected)
  | eof => exact fun _ _ _ _ _ => endsR_lift (fun _ => rfl) (prim (g := .eof) (fun _ => rfl) .eof)
  | satisfy test => exact fun _ _ _ _ _ => .satisfy
  | sym x l =>
    exact fun _ _ _ _ _ => endsR_lift (fun _ => rfl) (prim (g := .sym x l) (fun _ => rfl) .sym)
  | literal x l hx =>
    exact fun _ _ _ _ _ => endsR_lift (fun _ => rfl)
      (prim (g := .literal x l hx) (fun _ => rfl) .literal)
  | regexp m =>
    exact fun _ _ _ _ _ => endsR_lift (fun _ => rfl) (prim (g := .regexp m) (fun _ => rfl) .regexp)
  | fmap p fn ih => exact fun i ctx b w hi => (ih h _ _ _ _ hi).fmap
  | alt p q ihp ihq =>
    exact fun i ctx b w hi => EndsR.alt (fun w => ihp h.1 _ _ _ w hi) (fun w => ihq h.2 _ _ _ w hi)
      (fun w => ihp h.1 _ _ _ w hi) fun w => ihq h.2 _ _ _ w hi
  | bind p cb g ihp ihk =>
    exact fun i ctx b w hi => EndsR.bind (ihp h.1 _ _ _ _ hi)
      (fun n ra w1 hn x w2 _ => ihk x (h.2 x) _ _ _ _ (fn_ok hi hn).2.1)
      fun n ra w1 hn r hm x w2 => ihk x (h.2 x) _ _ _ _ (fn_frame hi hn r hm).1
  | seqWith p q m ihp ihq =>
    exact fun i ctx b w hi => EndsR.seqWith (ihp h.1 _ _ _ _ hi)
      (fun n ra w1 hn => ihq h.2 _ _ _ _ (fn_ok hi hn).2.1)
      fun n ra w1 hn r hm w2 => ihq h.2 _ _ _ _ (fn_frame hi hn r hm).1
  | maybe p ih => exact fun i ctx b w hi => (ih h _ _ _ _ hi).maybe
  | many p ih =>
    exact fun i ctx b w hi => EndsR.many (fun j ctx' w' _ h2 => ih h _ _ _ _ h2) hi
  | attempt p ih => exact fun i ctx b w hi => (ih h _ _ _ _ hi).attempt
  | label p x ih => exact fun i ctx b w hi => (ih h _ _ _ _ hi).label
  | recover p ih => exact fun i ctx b w hi => (ih h _ _ _ _ hi).recover
  | recoverWith p x vs ih => exact fun i ctx b w hi => (ih h _ _ _ _ hi).recoverWith
  | recoverWithFn p fn lbl ih => exact fun i ctx b w hi => (ih h _ _ _ _ hi).recoverWithFn
  | block p ih => exact fun i ctx b w hi => EndsR.block fun _ => ih h _ _ _ _ hi
  | aligned p ih => exact fun i ctx b w hi => EndsR.aligned fun _ => ih h _ _ _ _ hi
  | indented d p ih => exact fun i ctx b w hi => EndsR.indented fun _ => ih h _ _ _ _ hi
  | ref x => exact absurd h id

end

end Reparsec.Eff
