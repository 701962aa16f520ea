import Verif.Spec.Append
import Verif.Spec.Run

/-!
# The model with `Append` objects is the model with lists
-/

namespace Reparsec.App

variable {τ α β γ : Type}

/-- The functions with lists for `Append` objects. -/
def ParseFns.flat (p : ParseFns τ α) : Reparsec.ParseFns τ α where
  fast s pos ctx := (p.fast s pos ctx).map Simple.flat
  fn s pos ctx ins rem := (p.fn s pos ctx ins rem).map Result.flat

@[simp] theorem Exp.toList_append (a b : Exp) : (a ++ b).toList = a.toList ++ b.toList := rfl

theorem map_bind {β γ δ : Type} (x : Out β) (f : β → Out γ) (g : γ → δ) :
    (x.bind f).map g = x.bind fun a => (f a).map g := by
  cases x <;> rfl

theorem bind_map {β γ δ : Type} (x : Out β) (f : β → γ) (g : γ → Out δ) :
    (x.map f).bind g = x.bind fun a => g (f a) := by
  cases x <;> rfl

theorem bind_same {β γ : Type} {x : Out β} {f g : β → Out γ} (h : ∀ a, f a = g a) : x.bind f = x.bind g := by
  cases x <;> simp [h]

@[simp] theorem map_ret {β γ : Type} (f : β → γ) (b : β) : (Out.ret b).map f = .ret (f b) := rfl
@[simp] theorem map_raise {β γ : Type} (f : β → γ) (e : Exn) : (Out.raise e).map f = .raise e := rfl
@[simp] theorem map_diverge {β γ : Type} (f : β → γ) : (Out.diverge : Out β).map f = .diverge := rfl

/-! ### `core/result.py`, `core/repair.py` -/

theorem OpItem.flat_set (x : Exp) (i : OpItem) : (i.setExpected x).flat = i.flat.setExpected x.toList := by
  simp only [OpItem.setExpected, Reparsec.OpItem.setExpected, OpItem.flat]
  split <;> simp_all

theorem OpItem.flat_prepend (x : Exp) (c : Bool) (i : OpItem) :
    (i.prependExpected x c).flat = i.flat.prependExpected x.toList c := by
  simp only [OpItem.prependExpected, Reparsec.OpItem.prependExpected, OpItem.flat]
  split <;> simp_all

theorem ops_set (x : Exp) (l : List OpItem) :
    (opsSetExpected l x).map OpItem.flat = Reparsec.opsSetExpected (l.map OpItem.flat) x.toList := by
  simp only [opsSetExpected, Reparsec.opsSetExpected, List.map_map]
  exact List.map_congr_left fun i _ => OpItem.flat_set x i

theorem ops_prepend (x : Exp) (c : Bool) (l : List OpItem) :
    (opsPrependExpected l x c).map OpItem.flat = Reparsec.opsPrependExpected (l.map OpItem.flat) x.toList c := by
  simp only [opsPrependExpected, Reparsec.opsPrependExpected, List.map_map]
  exact List.map_congr_left fun i _ => OpItem.flat_prepend x c i

theorem Repair.flat_set (x : Exp) (r : Repair τ α) : (r.setExpected x).flat = r.flat.setExpected x.toList := by
  simp only [Repair.setExpected, Reparsec.Repair.setExpected, Repair.flat, ops_set, Reparsec.Repair.mk.injEq, true_and,
    and_true]
  split <;> simp_all

theorem Repair.flat_prepend (x : Exp) (c : Bool) (r : Repair τ α) :
    (r.prependExpected x c).flat = r.flat.prependExpected x.toList c := by
  simp only [Repair.prependExpected, Reparsec.Repair.prependExpected, Repair.flat, ops_prepend,
    Reparsec.Repair.mk.injEq, true_and, and_true]
  split <;> simp_all

theorem Ok.flat_set (x : Exp) (r : Ok τ α) : (r.setExpected x).flat = r.flat.setExpected x.toList := by
  simp only [Ok.setExpected, Reparsec.Ok.setExpected, Ok.flat]
  split <;> simp_all

theorem Ok.flat_prepend (x : Exp) (c : Bool) (r : Ok τ α) :
    (r.prependExpected x c).flat = r.flat.prependExpected x.toList c := by
  simp only [Ok.prependExpected, Reparsec.Ok.prependExpected, Ok.flat]
  split <;> simp_all

theorem Err.flat_set (x : Exp) (r : Err) : (r.setExpected x).flat = r.flat.setExpected x.toList := by
  simp only [Err.setExpected, Reparsec.Err.setExpected, Err.flat]
  split <;> simp_all

theorem Err.flat_prepend (x : Exp) (c : Bool) (r : Err) :
    (r.prependExpected x c).flat = r.flat.prependExpected x.toList c := by
  simp only [Err.prependExpected, Reparsec.Err.prependExpected, Err.flat]
  split <;> simp_all

theorem Recovered.flat_set (x : Exp) (r : Recovered τ α) : (r.setExpected x).flat = r.flat.setExpected x.toList := by
  simp only [Recovered.setExpected, Reparsec.Recovered.setExpected, Recovered.flat, List.map_map,
    Reparsec.Recovered.mk.injEq, true_and, and_true]
  exact ⟨List.map_congr_left fun i _ => Repair.flat_set x i, by split <;> simp_all⟩

theorem Recovered.flat_prepend (x : Exp) (c : Bool) (r : Recovered τ α) :
    (r.prependExpected x c).flat = r.flat.prependExpected x.toList c := by
  simp only [Recovered.prependExpected, Reparsec.Recovered.prependExpected, Recovered.flat, List.map_map,
    Reparsec.Recovered.mk.injEq, true_and, and_true]
  exact ⟨List.map_congr_left fun i _ => Repair.flat_prepend x c i, by split <;> simp_all⟩

theorem Simple.flat_set (x : Exp) (r : Simple τ α) : (r.setExpected x).flat = r.flat.setExpected x.toList := by
  cases r with
  | ok r => simp only [Simple.setExpected, Simple.flat, Reparsec.Simple.setExpected, Ok.flat_set]
  | error r => simp only [Simple.setExpected, Simple.flat, Reparsec.Simple.setExpected, Err.flat_set]

theorem Simple.flat_prepend (x : Exp) (c : Bool) (r : Simple τ α) :
    (r.prependExpected x c).flat = r.flat.prependExpected x.toList c := by
  cases r with
  | ok r => simp only [Simple.prependExpected, Simple.flat, Reparsec.Simple.prependExpected, Ok.flat_prepend]
  | error r => simp only [Simple.prependExpected, Simple.flat, Reparsec.Simple.prependExpected, Err.flat_prepend]

theorem Result.flat_set (x : Exp) (r : Result τ α) : (r.setExpected x).flat = r.flat.setExpected x.toList := by
  cases r with
  | ok r => simp only [Result.setExpected, Result.flat, Reparsec.Result.setExpected, Ok.flat_set]
  | error r => simp only [Result.setExpected, Result.flat, Reparsec.Result.setExpected, Err.flat_set]
  | recovered r => simp only [Result.setExpected, Result.flat, Reparsec.Result.setExpected, Recovered.flat_set]

theorem Result.flat_prepend (x : Exp) (c : Bool) (r : Result τ α) :
    (r.prependExpected x c).flat = r.flat.prependExpected x.toList c := by
  cases r with
  | ok r => simp only [Result.prependExpected, Result.flat, Reparsec.Result.prependExpected, Ok.flat_prepend]
  | error r => simp only [Result.prependExpected, Result.flat, Reparsec.Result.prependExpected, Err.flat_prepend]
  | recovered r =>
    simp only [Result.prependExpected, Result.flat, Reparsec.Result.prependExpected, Recovered.flat_prepend]

theorem Simple.flat_setCtx (c : Ctx τ) (r : Simple τ α) : (r.setCtx c).flat = r.flat.setCtx c := by
  cases r <;> rfl

theorem Result.flat_setCtx (c : Ctx τ) (r : Result τ α) : (r.setCtx c).flat = r.flat.setCtx c := by
  cases r with
  | ok | error => rfl
  | recovered r =>
    simp only [Result.setCtx, Result.flat, Reparsec.Result.setCtx, Recovered.flat, List.map_map]
    rfl

theorem Simple.flat_fmap (f : α → β) (r : Simple τ α) : (r.fmap f).flat = r.flat.fmap f := by
  cases r <;> rfl

theorem Result.flat_fmap (f : α → β) (r : Result τ α) : (r.fmap f).flat = r.flat.fmap f := by
  cases r with
  | ok | error => rfl
  | recovered r =>
    simp only [Result.fmap, Result.flat, Reparsec.Result.fmap, Recovered.flat, List.map_map]
    rfl

theorem Simple.flat_fmapM (f : α → Except Exn β) (r : Simple τ α) :
    (r.fmapM f).map Simple.flat = r.flat.fmapM f := by
  cases r with
  | ok r =>
    simp only [Simple.fmapM, Simple.flat, Reparsec.Simple.fmapM, Ok.fmapM, Reparsec.Ok.fmapM, Ok.flat]
    cases f r.value <;> rfl
  | error => rfl

theorem flat_repairsFmapM (f : α → Except Exn β) (l : List (Repair τ α)) :
    (repairsFmapM f l).map (List.map Repair.flat) = Reparsec.repairsFmapM f (l.map Repair.flat) := by
  induction l with
  | nil => rfl
  | cons r l ih =>
    simp only [repairsFmapM, Reparsec.repairsFmapM, List.map_cons, ← ih, Repair.fmapM, Reparsec.Repair.fmapM, Repair.flat]
    cases f r.value with
    | error => rfl
    | ok v => cases repairsFmapM f l <;> rfl

theorem Result.flat_fmapM (f : α → Except Exn β) (r : Result τ α) :
    (r.fmapM f).map Result.flat = r.flat.fmapM f := by
  cases r with
  | ok r =>
    simp only [Result.fmapM, Result.flat, Reparsec.Result.fmapM, Ok.fmapM, Reparsec.Ok.fmapM, Ok.flat]
    cases f r.value <;> rfl
  | error => rfl
  | recovered r =>
    simp only [Result.fmapM, Result.flat, Reparsec.Result.fmapM, Recovered.flat, ← flat_repairsFmapM]
    cases repairsFmapM f r.repairs <;> rfl

theorem Simple.flat_ok (r : Ok τ α) : (Simple.ok r).flat = .ok r.flat := rfl

theorem Result.flat_ok (r : Ok τ α) : (Result.ok r).flat = .ok r.flat := rfl

/-! ### `core/recovery.py` -/

theorem flat_joinOps (r : Repair τ α) (r' : Repair τ β) :
    (joinOps r r').map OpItem.flat = Reparsec.joinOps r.flat r'.flat := by
  simp only [joinOps, Reparsec.joinOps, List.map_append, ops_prepend, Repair.flat]

theorem flat_appendExpected (r : Repair τ α) (x : Exp) (c : Bool) :
    (appendExpected r x c).toList = Reparsec.appendExpected r.flat x.toList c := by
  simp only [appendExpected, Reparsec.appendExpected, Repair.flat]
  split <;> simp_all

theorem flat_contOne (ins : Int) (merge : α → β → γ) (r : Repair τ α) (rb : Result τ β) :
    (contOne ins merge r rb).map Repair.flat = Reparsec.contOne ins merge r.flat rb.flat := by
  cases rb with
  | error => rfl
  | ok rb =>
    simp only [contOne, Result.flat, Reparsec.contOne, List.map_cons, List.map_nil, Repair.flat, flat_appendExpected, Ok.flat]
    rfl
  | recovered rb =>
    simp only [contOne, Result.flat, Reparsec.contOne, Recovered.flat, List.map_map]
    refine List.map_congr_left fun rr _ => ?_
    simp only [Function.comp_apply]
    conv => lhs; unfold Repair.flat
    simp only [flat_joinOps, flat_appendExpected]
    rfl

theorem flat_contReps {ins : Int} {f : α → Nat → Ctx τ → Int → Out (Result τ β)}
    {g : α → Nat → Ctx τ → Int → Out (Reparsec.Result τ β)} (h : ∀ v p c r, (f v p c r).map Result.flat = g v p c r)
    (merge : α → β → γ) (l : List (Repair τ α)) :
    (contReps ins f merge l).map (List.map Repair.flat) = Reparsec.contReps ins g merge (l.map Repair.flat) := by
  induction l with
  | nil => rfl
  | cons r l ih =>
    simp only [contReps, Reparsec.contReps, List.map_cons, ← ih, ← h]
    show _ = Out.bind ((f r.value r.pos r.ctx r.ins).map Result.flat) _
    rw [bind_map]
    simp only [Out.bind_def, map_bind, bind_map, Out.pure_def, map_ret, List.map_append, flat_contOne]

theorem flat_continueParse {ra : Recovered τ α} {ins : Int} {f : α → Nat → Ctx τ → Int → Out (Result τ β)}
    {g : α → Nat → Ctx τ → Int → Out (Reparsec.Result τ β)} (h : ∀ v p c r, (f v p c r).map Result.flat = g v p c r)
    (merge : α → β → γ) :
    (continueParse ra ins f merge).map Result.flat = Reparsec.continueParse ra.flat ins g merge := by
  simp only [continueParse, Reparsec.continueParse]
  show _ = Out.bind (Reparsec.contReps ins g merge (ra.repairs.map Repair.flat)) _
  rw [← flat_contReps h, bind_map]
  simp only [Out.bind_def, map_bind, Out.pure_def, map_ret]
  rfl

theorem flat_joinReps (ra rb : Recovered τ α) :
    (joinReps ra rb).map Repair.flat = Reparsec.joinReps ra.flat rb.flat := by
  have e1 : ∀ m, (Reparsec.prioBelow m ∘ Repair.flat : Repair τ α → Bool) = prioBelow m := fun m => rfl
  have e2 : ((fun r => r.prio.isSome) ∘ Repair.flat : Repair τ α → Bool) = fun r => r.prio.isSome := rfl
  simp only [joinReps, Reparsec.joinReps, Recovered.flat, List.filter_map, e1, e2]
  cases ra.minPrio <;> simp only [List.map_append]

theorem flat_joinRepairs (ra rb : Recovered τ α) :
    (joinRepairs ra rb).flat = Reparsec.joinRepairs ra.flat rb.flat := by
  simp only [joinRepairs, Reparsec.joinRepairs, ← flat_joinReps]
  have h1 : ra.flat.consumed = ra.consumed := rfl
  have h2 : rb.flat.consumed = rb.consumed := rfl
  rw [h1, h2]
  split
  · rfl
  · split <;> rfl

/-! ### Primitives -/

theorem flat_pure (x : α) : (pureFns x : ParseFns τ α).flat = Reparsec.pureFns x := rfl

theorem flat_pureFn (x : Except Exn α) : (pureFnFns x : ParseFns τ α).flat = Reparsec.pureFnFns x := by
  simp only [ParseFns.flat, pureFnFns, Reparsec.pureFnFns]
  cases x <;> rfl

theorem flat_unexpected (x : String) : (unexpectedFns x : ParseFns τ Unit).flat = Reparsec.unexpectedFns x := rfl

theorem flat_eof : (eofFns : ParseFns τ Unit).flat = Reparsec.eofFns := by
  simp only [ParseFns.flat, eofFns, Reparsec.eofFns, Reparsec.ParseFns.mk.injEq]
  constructor
  · funext s pos ctx
    simp only [eofFast, Reparsec.eofFast]
    split <;> rfl
  · funext s pos ctx ins rem
    simp only [eofFn, Reparsec.eofFn]
    split
    · rfl
    · cases rem <;> rfl

theorem flat_satisfy (test : τ → Except Exn Bool) : (satisfyFns test).flat = Reparsec.satisfyFns test := by
  simp only [ParseFns.flat, satisfyFns, Reparsec.satisfyFns, Reparsec.ParseFns.mk.injEq]
  constructor
  · funext s pos ctx
    simp only [satisfyFast, Reparsec.satisfyFast, Out.bind_def, map_bind]
    refine bind_same fun a => ?_
    cases a <;> rfl
  · funext s pos ctx ins rem
    simp only [satisfyFn, Reparsec.satisfyFn, Out.bind_def, map_bind]
    refine bind_same fun a => ?_
    cases a with
    | some => rfl
    | none =>
      cases rem with
      | none => rfl
      | some =>
        simp only [map_bind]
        refine bind_same fun a => ?_
        cases a <;> rfl

theorem flat_sym [BEq τ] (x : τ) (l : String) : (symFns x l).flat = Reparsec.symFns x l := by
  simp only [ParseFns.flat, symFns, Reparsec.symFns, Reparsec.ParseFns.mk.injEq]
  constructor
  · funext s pos ctx
    simp only [symFast, Reparsec.symFast]
    cases symAt x s pos <;> rfl
  · funext s pos ctx ins rem
    simp only [symFn, Reparsec.symFn]
    cases symAt x s pos with
    | some => rfl
    | none =>
      cases rem with
      | none => rfl
      | some k =>
        simp only [Out.bind_def, map_bind]
        refine bind_same fun a => ?_
        by_cases hk : k = 0 <;> cases a <;> simp only [hk, ne_eq, not_true_eq_false, not_false_eq_true, if_true, if_false] <;> rfl

theorem flat_literal [BEq τ] (x : List τ) (l : String) : (literalFns x l).flat = Reparsec.literalFns x l := by
  simp only [ParseFns.flat, literalFns, Reparsec.literalFns, Reparsec.ParseFns.mk.injEq]
  constructor
  · funext s pos ctx
    simp only [literalFast, Reparsec.literalFast]
    split <;> rfl
  · funext s pos ctx ins rem
    simp only [literalFn, Reparsec.literalFn]
    split
    · rfl
    · cases rem with
      | none => rfl
      | some k =>
        simp only [Out.bind_def, map_bind]
        refine bind_same fun a => ?_
        by_cases hk : k = 0 <;> cases a <;> simp only [hk, ne_eq, not_true_eq_false, not_false_eq_true, if_true, if_false] <;> rfl

theorem flat_regexp (m : Matcher τ β) : (regexpFns m).flat = Reparsec.regexpFns m := by
  simp only [ParseFns.flat, regexpFns, Reparsec.regexpFns, Reparsec.ParseFns.mk.injEq]
  constructor
  · funext s pos ctx
    simp only [regexpFast, Reparsec.regexpFast, Out.bind_def, map_bind]
    refine bind_same fun a => ?_
    cases a <;> rfl
  · funext s pos ctx ins rem
    simp only [regexpFn, Reparsec.regexpFn, Out.bind_def, map_bind]
    refine bind_same fun a => ?_
    cases a with
    | some => rfl
    | none =>
      cases rem with
      | none => rfl
      | some =>
        simp only [map_bind]
        refine bind_same fun a => ?_
        cases a <;> rfl

/-! ### Combinators -/

theorem flat_fmap (p : ParseFns τ α) (f : α → Except Exn β) : (fmapFns p f).flat = Reparsec.fmapFns p.flat f := by
  simp only [ParseFns.flat, fmapFns, Reparsec.fmapFns, Reparsec.ParseFns.mk.injEq]
  constructor
  · funext s pos ctx
    simp only [fmapFast, Reparsec.fmapFast, Out.bind_def, map_bind, bind_map, Simple.flat_fmapM]
  · funext s pos ctx ins rem
    simp only [fmapFn, Reparsec.fmapFn, Out.bind_def, map_bind, bind_map, Result.flat_fmapM]

theorem map_ite {β γ : Type} {c : Prop} [Decidable c] (f : β → γ) (x y : Out β) :
    (if c then x else y).map f = if c then x.map f else y.map f := by
  split <;> rfl

theorem flat_altRecover (p q : ParseFns τ α) (s : List τ) (pos : Nat) (ctx : Ctx τ) (ins : Int) (rem : Option Int)
    (loc : Loc) (x : Exp) :
    (altRecover p q s pos ctx ins rem loc x).map Result.flat =
      Reparsec.altRecover p.flat q.flat s pos ctx ins rem loc x.toList := by
  cases rem with
  | none => rfl
  | some k =>
    simp only [altRecover, Reparsec.altRecover, Out.bind_def, map_bind, ParseFns.flat, bind_map]
    refine bind_same fun a => bind_same fun b => ?_
    cases a <;> cases b <;>
      simp only [Result.flat, map_ret, Recovered.flat_set, flat_joinRepairs] <;> rfl

theorem flat_altSecond (p q : ParseFns τ α) (s : List τ) (pos : Nat) (ctx : Ctx τ) (ins : Int) (rem : Option Int)
    (loc : Loc) (x : Exp) :
    (altSecond p q s pos ctx ins rem loc x).map Result.flat =
      Reparsec.altSecond p.flat q.flat s pos ctx ins rem loc x.toList := by
  have e : (q.flat).fn s pos ctx ins none = (q.fn s pos ctx ins none).map Result.flat := rfl
  simp only [altSecond, Reparsec.altSecond, Out.bind_def, map_bind, e, bind_map]
  refine bind_same fun a => ?_
  cases a with
  | ok r =>
    simp only [Result.flat, map_ite, map_ret, Ok.flat_set]
    rfl
  | error r =>
    simp only [Result.flat, map_ite, map_ret, flat_altRecover]
    rfl
  | recovered r =>
    simp only [Result.flat, map_ite, map_ret, flat_altRecover]
    rfl

theorem flat_alt (p q : ParseFns τ α) : (altFns p q).flat = Reparsec.altFns p.flat q.flat := by
  simp only [altFns, Reparsec.altFns]
  unfold ParseFns.flat
  simp only [Reparsec.ParseFns.mk.injEq]
  constructor
  · funext s pos ctx
    simp only [altFast, Reparsec.altFast, Out.bind_def, map_bind, bind_map]
    refine bind_same fun a => ?_
    cases a with
    | ok => rfl
    | error e =>
      simp only [Simple.flat, map_ite, map_ret, map_bind]
      show _ = if e.consumed = true then _ else _
      split
      · rfl
      · refine bind_same fun b => ?_
        cases b with
        | ok r => simp only [Simple.flat, map_ite, map_ret, Ok.flat_set]; rfl
        | error r => simp only [Simple.flat, map_ite, map_ret]; rfl
  · funext s pos ctx ins rem
    simp only [altFn, Reparsec.altFn, Out.bind_def, map_bind, bind_map]
    refine bind_same fun a => ?_
    cases a with
    | ok => rfl
    | error e => simp only [Result.flat, map_ite, map_ret, flat_altSecond]; rfl
    | recovered e => simp only [Result.flat, map_ite, map_ret, flat_altSecond]; rfl

theorem flat_bindFast (p : ParseFns τ α) (f : α → ParseFns τ β) (s : List τ) (pos : Nat) (ctx : Ctx τ) :
    (bindFast p f s pos ctx).map Simple.flat = Reparsec.bindFast p.flat (fun a => (f a).flat) s pos ctx := by
  have e : (p.flat).fast s pos ctx = (p.fast s pos ctx).map Simple.flat := rfl
  simp only [bindFast, Reparsec.bindFast, Out.bind_def, map_bind, e, bind_map]
  refine bind_same fun a => ?_
  cases a with
  | error => rfl
  | ok r =>
    simp only [Simple.flat_ok, ParseFns.flat, map_bind, bind_map, Out.pure_def, map_ret, Simple.flat_prepend]
    rfl

theorem flat_seqFast (p : ParseFns τ α) (q : ParseFns τ β) (merge : α → β → γ) (s : List τ) (pos : Nat) (ctx : Ctx τ) :
    (seqFast p q merge s pos ctx).map Simple.flat = Reparsec.seqFast p.flat q.flat merge s pos ctx := by
  have e : (p.flat).fast s pos ctx = (p.fast s pos ctx).map Simple.flat := rfl
  simp only [seqFast, Reparsec.seqFast, Out.bind_def, map_bind, e, bind_map]
  refine bind_same fun a => ?_
  cases a with
  | error => rfl
  | ok r =>
    simp only [Simple.flat_ok, ParseFns.flat, map_bind, bind_map, Out.pure_def, map_ret, Simple.flat_prepend, Simple.flat_fmap]
    rfl

theorem flat_maybe (p : ParseFns τ α) : (maybeFns p).flat = Reparsec.maybeFns p.flat := by
  simp only [maybeFns, Reparsec.maybeFns]
  unfold ParseFns.flat
  simp only [Reparsec.ParseFns.mk.injEq]
  constructor
  · funext s pos ctx
    simp only [maybeFast, Reparsec.maybeFast, Out.bind_def, map_bind, bind_map]
    refine bind_same fun a => ?_
    cases a with
    | ok => rfl
    | error e => simp only [Simple.flat, map_ite, map_ret]; rfl
  · funext s pos ctx ins rem
    simp only [maybeFn, Reparsec.maybeFn, Out.bind_def, map_bind, bind_map]
    refine bind_same fun a => ?_
    cases a with
    | ok => rfl
    | error e => simp only [Result.flat, map_ite, map_ret]; rfl
    | recovered r => simp only [map_ite, map_ret, Result.flat_fmap]; rfl

theorem flat_manyFastLoop (p : ParseFns τ α) (s : List τ) (fuel pos : Nat) (ctx : Ctx τ) (c : Bool) (v : List α) :
    (manyFastLoop p.fast s fuel pos ctx c v).map Simple.flat = Reparsec.manyFastLoop p.flat.fast s fuel pos ctx c v := by
  induction fuel generalizing pos ctx c v with
  | zero => rfl
  | succ n ih =>
    simp only [manyFastLoop, Reparsec.manyFastLoop, ← ih, Out.bind_def, map_bind]
    simp only [ParseFns.flat, bind_map]
    refine bind_same fun a => ?_
    cases a with
    | ok r => simp only [Simple.flat, map_ite]; rfl
    | error e => simp only [Simple.flat, map_ite, map_ret]; rfl

theorem flat_attempt (p : ParseFns τ α) : (attemptFns p).flat = Reparsec.attemptFns p.flat := by
  simp only [attemptFns, Reparsec.attemptFns]
  unfold ParseFns.flat
  simp only [Reparsec.ParseFns.mk.injEq]
  constructor
  · funext s pos ctx
    simp only [attemptFast, Reparsec.attemptFast, Out.bind_def, map_bind, bind_map]
    refine bind_same fun a => ?_
    cases a <;> rfl
  · funext s pos ctx ins rem
    cases rem with
    | some => rfl
    | none =>
      simp only [attemptFn, Reparsec.attemptFn, Out.bind_def, map_bind, bind_map]
      refine bind_same fun a => ?_
      cases a <;> rfl

theorem flat_label (p : ParseFns τ α) (x : String) : (labelFns p x).flat = Reparsec.labelFns p.flat x := by
  simp only [ParseFns.flat, labelFns, Reparsec.labelFns, Out.bind_def, Out.pure_def, map_bind, bind_map, map_ret,
    Simple.flat_set, Result.flat_set]
  rfl

theorem flat_recover (p : ParseFns τ α) : (recoverFns p).flat = Reparsec.recoverFns p.flat := by
  simp only [recoverFns, Reparsec.recoverFns]
  unfold ParseFns.flat
  simp only [Reparsec.ParseFns.mk.injEq, true_and]
  funext s pos ctx ins rem
  simp only [recoverFn, Reparsec.recoverFn, Out.bind_def, map_bind, bind_map]
  refine bind_same fun a => ?_
  cases a with
  | ok | error => rfl
  | recovered r =>
    simp only [Result.flat, map_ret, Recovered.flat, List.map_map]
    rfl

theorem flat_recoverWith (p : ParseFns τ α) (x : α) (vs : String) :
    (recoverWithFns p x vs).flat = Reparsec.recoverWithFns p.flat x vs := by
  simp only [recoverWithFns, Reparsec.recoverWithFns]
  unfold ParseFns.flat
  simp only [Reparsec.ParseFns.mk.injEq, true_and]
  funext s pos ctx ins rem
  cases rem with
  | none => rfl
  | some k =>
    simp only [recoverWithFn, Reparsec.recoverWithFn, Out.bind_def, map_bind, bind_map]
    refine bind_same fun a => ?_
    cases a with
    | ok => rfl
    | error e => simp only [Result.flat, map_ite, map_ret]; rfl
    | recovered r => simp only [Result.flat, map_ite, map_ret]; rfl

theorem flat_recoverWithFn (p : ParseFns τ α) (f : List τ → Nat → Except Exn α) (lbl : α → String) :
    (recoverWithFnFns p f lbl).flat = Reparsec.recoverWithFnFns p.flat f lbl := by
  simp only [recoverWithFnFns, Reparsec.recoverWithFnFns]
  unfold ParseFns.flat
  simp only [Reparsec.ParseFns.mk.injEq, true_and]
  funext s pos ctx ins rem
  cases rem with
  | none => rfl
  | some k =>
    simp only [recoverWithFnFn, Reparsec.recoverWithFnFn, Out.bind_def, map_bind, bind_map]
    refine bind_same fun a => ?_
    cases a with
    | ok => rfl
    | error e => simp only [Result.flat, map_ite, map_ret, map_bind]; rfl
    | recovered r => simp only [Result.flat, map_ite, map_ret, map_bind]; rfl

theorem flat_block (p : ParseFns τ α) : (blockFns p).flat = Reparsec.blockFns p.flat := by
  simp only [ParseFns.flat, blockFns, Reparsec.blockFns, Out.bind_def, Out.pure_def, map_bind, bind_map, map_ret,
    Simple.flat_setCtx, Result.flat_setCtx]

theorem flat_aligned (p : ParseFns τ α) : (alignedFns p).flat = Reparsec.alignedFns p.flat := by
  simp only [ParseFns.flat, alignedFns, Reparsec.alignedFns, map_ite, map_ret]
  rfl

theorem flat_indented (delta : Int) (p : ParseFns τ α) : (indentedFns delta p).flat = Reparsec.indentedFns delta p.flat := by
  simp only [ParseFns.flat, indentedFns, Reparsec.indentedFns, map_ite, map_ret, Out.bind_def, Out.pure_def, map_bind,
    bind_map, Simple.flat_setCtx, Result.flat_setCtx]
  rfl

/-! ### With a limited stack -/

open Reparsec.Stk (Frames call recursionError)

theorem call_map {β γ : Type} (f : β → γ) (b : Frames → Out β) (d : Frames) :
    (call b d).map f = call (fun d => (b d).map f) d := by
  cases d with
  | none => rfl
  | some d => cases d <;> rfl

namespace Stk

/-- The functions with lists for `Append` objects. -/
def LFns.flat (p : LFns τ α) : Reparsec.Stk.LFns τ α := fun d => (p d).flat

theorem flat_framed (b : LFns τ α) : LFns.flat (framed b) = Reparsec.Stk.framed (LFns.flat b) := by
  funext d
  simp only [LFns.flat, framed, Reparsec.Stk.framed, ParseFns.flat, call_map]

theorem flat_framedFn (p b : LFns τ α) : LFns.flat (framedFn p b) = Reparsec.Stk.framedFn (LFns.flat p) (LFns.flat b) := by
  funext d
  simp only [LFns.flat, framedFn, Reparsec.Stk.framedFn, ParseFns.flat, call_map]

theorem flat_continueParse {d : Frames} {ra : Recovered τ α} {ins : Int}
    {f : Frames → α → Nat → Ctx τ → Int → Out (Result τ β)}
    {g : Frames → α → Nat → Ctx τ → Int → Out (Reparsec.Result τ β)}
    (h : ∀ d v p c r, (f d v p c r).map Result.flat = g d v p c r) (merge : α → β → γ) :
    (continueParse d ra ins f merge).map Result.flat = Reparsec.Stk.continueParse d ra.flat ins g merge := by
  simp only [continueParse, Reparsec.Stk.continueParse, call_map]
  congr 1
  funext d
  refine App.flat_continueParse (fun v p c r => ?_) merge
  simp only [call_map, h]

theorem flat_bind (p : LFns τ α) (f : α → LFns τ β) :
    LFns.flat (bindFns p f) = Reparsec.Stk.bindFns (LFns.flat p) (fun a => LFns.flat (f a)) := by
  simp only [bindFns, Reparsec.Stk.bindFns, flat_framed]
  congr 1
  funext d
  conv => lhs; unfold LFns.flat ParseFns.flat
  simp only [Reparsec.ParseFns.mk.injEq]
  constructor
  · funext s pos ctx
    rw [flat_bindFast]
    simp only [← flat_framed]
    rfl
  · funext s pos ctx ins rem
    have e : (LFns.flat p d).fn s pos ctx ins rem = ((p d).fn s pos ctx ins rem).map Result.flat := rfl
    simp only [bindFn, Reparsec.Stk.bindFn, Out.bind_def, map_bind, e, bind_map, ← flat_framed]
    refine bind_same fun a => ?_
    cases a with
    | error => rfl
    | recovered r => exact flat_continueParse (fun _ _ _ _ _ => rfl) _
    | ok r =>
      simp only [Result.flat_ok, map_ite, map_bind, Out.pure_def, map_ret, Result.flat_prepend]
      simp only [LFns.flat, ParseFns.flat, bind_map]
      rfl

theorem flat_seq (p : LFns τ α) (q : LFns τ β) (merge : α → β → γ) :
    LFns.flat (seqFns p q merge) = Reparsec.Stk.seqFns (LFns.flat p) (LFns.flat q) merge := by
  simp only [seqFns, Reparsec.Stk.seqFns, flat_framed]
  congr 1
  funext d
  conv => lhs; unfold LFns.flat ParseFns.flat
  simp only [Reparsec.ParseFns.mk.injEq]
  constructor
  · funext s pos ctx
    rw [flat_seqFast]
    rfl
  · funext s pos ctx ins rem
    have e : (LFns.flat p d).fn s pos ctx ins rem = ((p d).fn s pos ctx ins rem).map Result.flat := rfl
    simp only [seqFn, Reparsec.Stk.seqFn, Out.bind_def, map_bind, e, bind_map]
    refine bind_same fun a => ?_
    cases a with
    | error => rfl
    | recovered r => exact flat_continueParse (fun _ _ _ _ _ => rfl) _
    | ok r =>
      simp only [Result.flat_ok, map_bind, Out.pure_def, map_ret, Result.flat_prepend, Result.flat_fmap]
      simp only [LFns.flat, ParseFns.flat, bind_map]
      rfl

theorem flat_manyLoop (p : LFns τ α) (s : List τ) (ins : Int) (fuel : Nat) (d : Frames) (pos : Nat) (ctx : Ctx τ)
    (c : Bool) (v : List α) :
    (manyLoop p s ins fuel d pos ctx c v).map Result.flat =
      Reparsec.Stk.manyLoop (LFns.flat p) s ins fuel d pos ctx c v := by
  induction fuel generalizing d pos ctx c v with
  | zero => rfl
  | succ n ih =>
    have e : (LFns.flat p d).fn s pos ctx ins none = ((p d).fn s pos ctx ins none).map Result.flat := rfl
    simp only [manyLoop, Reparsec.Stk.manyLoop, Out.bind_def, map_bind, e, bind_map]
    refine bind_same fun a => ?_
    cases a with
    | ok r => simp only [Result.flat, map_ite, ih]; rfl
    | error e => simp only [Result.flat, map_ite, map_ret]; rfl
    | recovered r =>
      refine flat_continueParse (fun d v p c r => ?_) _
      simp only [call_map, ih]

theorem flat_many (fuel : Nat) (p : LFns τ α) :
    LFns.flat (manyFns fuel p) = Reparsec.Stk.manyFns fuel (LFns.flat p) := by
  simp only [manyFns, Reparsec.Stk.manyFns, flat_framed]
  congr 1
  funext d
  conv => lhs; unfold LFns.flat ParseFns.flat
  simp only [flat_manyFastLoop, flat_manyLoop]
  rfl

variable {ρ : Type} {Γ : ρ → Type} [BEq τ]

theorem flat_denoteWith (n : Nat) (t : (i : ρ) → LFns τ (Γ i)) (p : P τ ρ Γ α) :
    LFns.flat (denoteWith n t p) = Reparsec.Stk.denoteWith n (fun i => LFns.flat (t i)) p := by
  induction p with
  | pure x => rw [denoteWith, Reparsec.Stk.denoteWith, flat_framed]; rfl
  | pureFn x => rw [denoteWith, Reparsec.Stk.denoteWith, flat_framed]; unfold LFns.flat; simp only [flat_pureFn]
  | unexpected x => rw [denoteWith, Reparsec.Stk.denoteWith, flat_framed]; rfl
  | eof => rw [denoteWith, Reparsec.Stk.denoteWith, flat_framed]; unfold LFns.flat; simp only [flat_eof]
  | satisfy x => rw [denoteWith, Reparsec.Stk.denoteWith, flat_framed]; unfold LFns.flat; simp only [flat_satisfy]
  | sym x l => rw [denoteWith, Reparsec.Stk.denoteWith, flat_framed]; unfold LFns.flat; simp only [flat_sym]
  | literal x l => rw [denoteWith, Reparsec.Stk.denoteWith, flat_framed]; unfold LFns.flat; simp only [flat_literal]
  | regexp m => rw [denoteWith, Reparsec.Stk.denoteWith, flat_framed]; unfold LFns.flat; simp only [flat_regexp]
  | fmap p f ih =>
    rw [denoteWith, Reparsec.Stk.denoteWith, flat_framed, ← ih]; unfold LFns.flat; simp only [flat_fmap]
  | alt p q ihp ihq =>
    rw [denoteWith, Reparsec.Stk.denoteWith, flat_framed, ← ihp, ← ihq]; unfold LFns.flat; simp only [flat_alt]
  | bind p f ihp ihf => rw [denoteWith, Reparsec.Stk.denoteWith, flat_bind, ihp]; simp only [ihf]
  | seqWith p q merge ihp ihq => rw [denoteWith, Reparsec.Stk.denoteWith, flat_seq, ihp, ihq]
  | maybe p ih => rw [denoteWith, Reparsec.Stk.denoteWith, flat_framed, ← ih]; unfold LFns.flat; simp only [flat_maybe]
  | many p ih => rw [denoteWith, Reparsec.Stk.denoteWith, flat_many, ih]
  | attempt p ih =>
    rw [denoteWith, Reparsec.Stk.denoteWith, flat_framed, ← ih]; unfold LFns.flat; simp only [flat_attempt]
  | label p x ih =>
    rw [denoteWith, Reparsec.Stk.denoteWith, flat_framed, ← ih]; unfold LFns.flat; simp only [flat_label]
  | recover p ih =>
    rw [denoteWith, Reparsec.Stk.denoteWith, flat_framedFn, ← ih]; congr 1; unfold LFns.flat; simp only [flat_recover]
  | recoverWith p x vs ih =>
    rw [denoteWith, Reparsec.Stk.denoteWith, flat_framedFn, ← ih]; congr 1; unfold LFns.flat; simp only [flat_recoverWith]
  | recoverWithFn p f l ih =>
    rw [denoteWith, Reparsec.Stk.denoteWith, flat_framedFn, ← ih]; congr 1; unfold LFns.flat; simp only [flat_recoverWithFn]
  | block p ih =>
    rw [denoteWith, Reparsec.Stk.denoteWith, flat_framed, ← ih]; unfold LFns.flat; simp only [flat_block]
  | aligned p ih =>
    rw [denoteWith, Reparsec.Stk.denoteWith, flat_framed, ← ih]; unfold LFns.flat; simp only [flat_aligned]
  | indented delta p ih =>
    rw [denoteWith, Reparsec.Stk.denoteWith, flat_framed, ← ih]; unfold LFns.flat; simp only [flat_indented]
  | ref i => rfl

theorem flat_table (env : Env τ ρ Γ) (n : Nat) (i : ρ) :
    LFns.flat (table env n i) = Reparsec.Stk.table env n i := by
  induction n generalizing i with
  | zero => rw [table, Reparsec.Stk.table, flat_framed]; rfl
  | succ n ih =>
    simp only [table, Reparsec.Stk.table]
    cases env i with
    | none => simp only [flat_framed]; rfl
    | some p => simp only [flat_framed, flat_denoteWith, ih]

theorem flat_parse (env : Env τ ρ Γ) (n : Nat) (d : Frames) (p : P τ ρ Γ α) (s : List τ) (b : Bool) (k : Int)
    (gl : Loc → List τ → Nat → Loc) :
    (parse env n d p s b k gl).map Result.flat = Reparsec.Stk.parse env n d p s b k gl := by
  have h : LFns.flat (framed (denote env n p)) = Reparsec.Stk.framed (Reparsec.Stk.denote env n p) := by
    simp only [flat_framed, denote, Reparsec.Stk.denote, flat_denoteWith, flat_table]
  simp only [parse, Reparsec.Stk.parse, call_map, map_ite, ← h]
  congr 1
  funext d
  cases b with
  | true => rfl
  | false =>
    simp only [Out.bind_def, map_bind, LFns.flat, ParseFns.flat, bind_map, Bool.false_eq_true, if_false]
    refine bind_same fun a => ?_
    cases a <;> rfl

end Stk

end Reparsec.App
