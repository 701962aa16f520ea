import Verif.Props.Repairs

/-!
# C28: the repair of `unwrap` is a cheapest one of those found, not of all there are
-/

namespace Reparsec

variable {τ ρ : Type} {Γ : ρ → Type} {α : Type} [BEq τ] [LawfulBEq τ] {env : Env τ ρ Γ}

/-- `sym(a).many() << eof()` -/
def manyToEnd (a : τ) (la : String) : P τ ρ Γ (List τ) := .seql (.many (.sym a la)) .eof

theorem reads_sym {a : τ} {la : String} {s : List τ} {i : Nat} {c : Ctx τ} (h : s[i]? = some a) :
    ∃ d, Reads env (.sym a la : P τ ρ Γ τ) s i c a (i + 1) d :=
  (C31_match (.sym a la) (v := a) (j := i + 1) (ins := 0) (by simp [Terminal.sym, h])).1

theorem items_replicate {a : τ} {la : String} {s : List τ} (n : Nat) {i : Nat} {c : Ctx τ}
    (h : ∀ j, i ≤ j → j < i + n → s[j]? = some a) :
    ∃ d, Items env (.sym a la : P τ ρ Γ τ) s i c (List.replicate n a) (i + n) d := by
  induction n generalizing i c with
  | zero => exact ⟨c, .nil⟩
  | succ n ih =>
    obtain ⟨d, hd⟩ := reads_sym (env := env) (la := la) (c := c) (h i (Nat.le_refl _) (by omega))
    obtain ⟨e, he⟩ := ih (i := i + 1) (c := d) fun j h1 h2 => h j (by omega) (by omega)
    refine ⟨e, .cons hd (by omega) ?_⟩
    rw [show i + (n + 1) = i + 1 + n by omega]
    exact he

/-- C28 (its limits). The repair that `unwrap` takes is a cheapest one of the repairs that were found; there may be
much cheaper ones that were not. For `sym(a).many() << eof()` and an input of another element `b` followed by `n`
times `a`, every repair costs `n + 1`: it skips everything. But without `b` the input is accepted. -/
theorem C28_not_cheapest_of_all (a b : τ) (hab : a ≠ b) (la : String) (n : Nat) (gl : Loc → List τ → Nat → Loc)
    (k : Int) :
    (∃ r, Returns env (manyToEnd a la) (b :: List.replicate n a) (recovering k gl) (.recovered r) ∧
      r.repairs ≠ [] ∧ ∀ x ∈ r.repairs, x.cost = n + 1 ∧ x.value = [] ∧ x.ops.map OpItem.op = [.skip (n + 1)]) ∧
    ∃ o, Returns env (manyToEnd a la) (List.replicate n a) (plain gl) (.ok o) ∧ o.value = List.replicate n a := by
  constructor
  · have h0 := (C31_no_match (env := env) (ins := k) (s := b :: List.replicate n a) (pos := 0) (ctx := initCtx gl)
      (.sym a la) (by simpa [Terminal.sym] using fun h => hab h.symm)).2
    have h1 := C54_many (rem := some k) (Nat.zero_le _) .nil h0 (.done rfl)
    obtain ⟨r, hr, -, -, -, h2⟩ := C32_repair (env := env) (ins := k) (k := k) (s := b :: List.replicate n a) (pos := 0)
      (ctx := initCtx gl) (by simp)
    have h3 := C53_first_succeeds (fun (x : List τ) (_ : Unit) => x) (Nat.zero_le _) h1 (by simpa using hr)
    refine ⟨_, returns_recRun.2 h3, ?_, ?_⟩
    · intro h
      simp only [List.map_eq_nil_iff] at h
      simp [h] at h2
    · intro x hx
      simp only [List.mem_map] at hx
      obtain ⟨y, hy, rfl⟩ := hx
      have : (y.cost, y.pos, y.ins, y.prio.isSome, y.ops) ∈ _ := List.mem_map_of_mem (f := fun x : Repair τ Unit =>
        (x.cost, x.pos, x.ins, x.prio.isSome, x.ops)) hy
      rw [h2] at this
      simp only [List.length_cons, List.length_replicate, List.mem_singleton, Prod.mk.injEq] at this
      obtain ⟨h4, -, -, -, h5⟩ := this
      refine ⟨h4, rfl, ?_⟩
      simp [h5]
  · obtain ⟨d, hd⟩ := items_replicate (env := env) (la := la) (s := List.replicate n a) n (i := 0) (c := initCtx gl)
      fun j _ h => by simp only [List.getElem?_replicate]; rw [if_pos (by omega)]
    have h1 : Reads env (.many (.sym a la)) (List.replicate n a) 0 (initCtx gl) (List.replicate n a) (0 + n) d :=
      (C10_success_iff (Nat.zero_le _)).2 ⟨hd, _, (C31_no_match (ins := 0) (.sym a la)
        (by simp [Terminal.sym])).1, rfl⟩
    have h2 : Reads env (.eof : P τ ρ Γ Unit) (List.replicate n a) (0 + n) d () n d :=
      C32_success_iff.2 ⟨by simp, by simp, rfl⟩
    obtain ⟨ex, c, m, h⟩ := (C15_seql (Nat.zero_le _)).2 ⟨_, _, _, h1, h2⟩
    refine ⟨⟨List.replicate n a, n, d, ex, c⟩, ⟨m, ?_⟩, rfl⟩
    simp only [parse, plain, Bool.false_eq_true, if_false, manyToEnd]
    show Out.bind _ _ = _
    simp only at h
    rw [h]
    rfl

end Reparsec
