import Verif.Lemmas.Twin

/-!
# Names do not matter

Two states that differ only in the identities of pool objects and in the ids of pools, the order of ids being kept, behave alike: every event has the
same effect on both, up to the same renaming.
-/

set_option linter.unusedSectionVars false

namespace RSE

variable {F : Type} [LinearOrder F]

/-! ### Sorted lists and dictionaries under a renaming -/

theorem Rel.of_map {α β : Type} {x : Py α} {y : Py β} {φ : α → β} (h : y = x.map φ) : Rel (fun a b => b = φ a) x y := by
  subst h
  cases x with
  | ok a => exact rfl
  | error e => exact rfl

theorem Rel.of_eq' {α : Type} {x y : Py α} (h : y = x) : Rel (fun a b => b = a) x y := by
  subst h
  cases y with
  | ok a => exact rfl
  | error e => exact rfl

section
variable {A B A' B' : Type} [LinearOrder A] [LinearOrder A'] {φ : A → A'} {ψ : B → B'}

theorem SKL.add_prod (hφ : ∀ a b, φ a < φ b ↔ a < b) (k : A) (v : B) (l : SKL A B) :
    SKL.add (φ k) (ψ v) (l.map (Prod.map φ ψ)) = (SKL.add k v l).map (Prod.map φ ψ) := by
  induction l with
  | nil => rfl
  | cons e t ih =>
    simp only [List.map_cons, SKL.add, Prod.map, hφ]
    split
    · rfl
    · simp only [List.map_cons, Prod.map]; rw [← ih]

variable [DecidableEq B] [DecidableEq B']

theorem SKL.index_prod (hφ : ∀ a b, φ a < φ b ↔ a < b) (hi : Function.Injective φ) (hψ : Function.Injective ψ) (k : A) (v : B) (l : SKL A B) :
    SKL.index (φ k) (ψ v) (l.map (Prod.map φ ψ)) = SKL.index k v l := by
  induction l with
  | nil => rfl
  | cons e t ih =>
    simp only [List.map_cons, SKL.index, Prod.map, hφ, hi.eq_iff, hψ.eq_iff]
    split
    · rfl
    · split
      · rfl
      · rw [← ih]

theorem SKL.remove_prod (hφ : ∀ a b, φ a < φ b ↔ a < b) (hi : Function.Injective φ) (hψ : Function.Injective ψ) (k : A) (v : B) (l : SKL A B) :
    SKL.remove (φ k) (ψ v) (l.map (Prod.map φ ψ)) = (SKL.remove k v l).map (List.map (Prod.map φ ψ)) := by
  induction l with
  | nil => rfl
  | cons e t ih =>
    simp only [List.map_cons, SKL.remove, Prod.map, hφ, hi.eq_iff, hψ.eq_iff]
    split
    · rfl
    · split
      · rfl
      · rw [ih]
        cases SKL.remove k v t with
        | ok l => rfl
        | error e => rfl

end

/-- the dictionary with renamed keys and values -/
def Dict.rename {V W : Type} (g : Nat → Nat) (φ : V → W) (d : Dict V) : Dict W := d.map (fun e => (g e.1, φ e.2))

namespace Dict
variable {V W : Type} {g : Nat → Nat} {φ : V → W}

theorem get?_rename (hg : Function.Injective g) (d : Dict V) (k : Nat) : (d.rename g φ).get? (g k) = (d.get? k).map φ := by
  induction d with
  | nil => rfl
  | cons e t ih =>
    simp only [rename, List.map_cons, get?, hg.eq_iff]
    split
    · rfl
    · exact ih

theorem set_rename (hg : Function.Injective g) (d : Dict V) (k : Nat) (v : V) : (d.rename g φ).set (g k) (φ v) = (d.set k v).rename g φ := by
  induction d with
  | nil => rfl
  | cons e t ih =>
    simp only [rename, List.map_cons, set, hg.eq_iff]
    split
    · rfl
    · simp only [List.map_cons]; rw [← rename, ← rename, ih]

theorem erase_rename (hg : Function.Injective g) (d : Dict V) (k : Nat) : (d.rename g φ).erase (g k) = (d.erase k).rename g φ := by
  induction d with
  | nil => rfl
  | cons e t ih =>
    simp only [rename, List.map_cons, erase, hg.eq_iff]
    split
    · rfl
    · simp only [List.map_cons]; rw [← rename, ← rename, ih]

theorem keys_rename (d : Dict V) : (d.rename g φ).keys = d.keys.map g := by
  unfold rename keys; rw [List.map_map, List.map_map]; rfl

theorem vals_rename (d : Dict V) : (d.rename g φ).vals = d.vals.map φ := by
  unfold rename vals; rw [List.map_map, List.map_map]; rfl

theorem length_rename (d : Dict V) : (d.rename g φ).length = d.length := List.length_map _

theorem contains_rename (hg : Function.Injective g) (d : Dict V) (k : Nat) : (d.rename g φ).contains (g k) = d.contains k := by
  unfold contains; rw [get?_rename hg, Option.isSome_map]

theorem getE_rename (hg : Function.Injective g) (d : Dict V) (k : Nat) : (d.rename g φ).getE (g k) = (d.getE k).map φ := by
  unfold getE; rw [get?_rename hg]
  cases d.get? k <;> rfl

theorem popE_rename (hg : Function.Injective g) (d : Dict V) (k : Nat) : (d.rename g φ).popE (g k) = (d.popE k).map (rename g φ) := by
  unfold popE; rw [get?_rename hg]
  cases d.get? k with
  | none => rfl
  | some v => simp only [Option.map_some]; rw [erase_rename hg]; rfl

theorem filter_keys_rename {U X : Type} {χ : U → X} (hg : Function.Injective g) (d : Dict V) (d' : Dict U) (p : Bool → Bool) :
    ((d.rename g φ).keys.filter (fun pid => p ((d'.rename g χ).contains pid))) = (d.keys.filter (fun pid => p (d'.contains pid))).map g := by
  rw [keys_rename, List.filter_map]
  congr 1
  apply List.filter_congr
  intro x _
  simp only [Function.comp, contains_rename hg]

end Dict

/-! ### Renamings -/

/-- new identities for objects, new ids for pools -/
structure Naming where
  f : Nat → Nat
  g : Nat → Nat
  f_inj : Function.Injective f
  g_mono : StrictMono g
  g_zero : g 0 = 0

namespace Naming
variable (ρ : Naming)

theorem g_inj : Function.Injective ρ.g := ρ.g_mono.injective

def pool (p : Pool F) : Pool F := { p with id := ρ.g p.id }
def key (k : Key F) : Key F := toLex ((ofLex k).1, toLex ((ofLex (ofLex k).2).1, ρ.g (ofLex (ofLex k).2).2))
def keyM (k : KeyM F) : KeyM F := toLex ((ofLex k).1, ρ.g (ofLex k).2)
def ref (r : Option Ref) : Option Ref := r.map ρ.f
def rank (l : SKL (Key F) (Option Ref)) : SKL (Key F) (Option Ref) := l.map (Prod.map ρ.key ρ.ref)
def rankM (l : SKL (KeyM F) (Option Ref)) : SKL (KeyM F) (Option Ref) := l.map (Prod.map ρ.keyM ρ.ref)
def allocs (d : Dict F) : Dict F := d.rename ρ.g id
def owned (d : Dict Ref) : Dict Ref := d.rename ρ.g ρ.f
def strat (σ : Strategy F) : Strategy F := { allocs := ρ.allocs σ.allocs, owned := ρ.owned σ.owned }
def agent (a : Agent F) : Agent F := { a with strategy := a.strategy.map ρ.strat, newStrategy := a.newStrategy.map ρ.strat }

theorem ref_inj : Function.Injective ρ.ref := Option.map_injective ρ.f_inj

theorem key_lt (a b : Key F) : ρ.key a < ρ.key b ↔ a < b := by
  obtain ⟨a1, a2, a3, rfl⟩ : ∃ a1 a2 a3, a = toLex (a1, toLex (a2, a3)) := ⟨_, _, _, rfl⟩
  obtain ⟨b1, b2, b3, rfl⟩ : ∃ b1 b2 b3, b = toLex (b1, toLex (b2, b3)) := ⟨_, _, _, rfl⟩
  simp only [key, ofLex_toLex, Prod.Lex.toLex_lt_toLex, ρ.g_mono.lt_iff_lt]

theorem key_inj : Function.Injective (ρ.key (F := F)) := by
  intro a b hab
  rcases lt_trichotomy a b with hlt | heq | hlt
  · exact absurd ((ρ.key_lt a b).2 hlt) (by rw [hab]; exact lt_irrefl _)
  · exact heq
  · exact absurd ((ρ.key_lt b a).2 hlt) (by rw [hab]; exact lt_irrefl _)

theorem keyM_lt (a b : KeyM F) : ρ.keyM a < ρ.keyM b ↔ a < b := by
  obtain ⟨a1, a2, rfl⟩ : ∃ a1 a2, a = toLex (a1, a2) := ⟨_, _, rfl⟩
  obtain ⟨b1, b2, rfl⟩ : ∃ b1 b2, b = toLex (b1, b2) := ⟨_, _, rfl⟩
  simp only [keyM, ofLex_toLex, Prod.Lex.toLex_lt_toLex, ρ.g_mono.lt_iff_lt]

theorem keyM_inj : Function.Injective (ρ.keyM (F := F)) := by
  intro a b hab
  rcases lt_trichotomy a b with hlt | heq | hlt
  · exact absurd ((ρ.keyM_lt a b).2 hlt) (by rw [hab]; exact lt_irrefl _)
  · exact heq
  · exact absurd ((ρ.keyM_lt b a).2 hlt) (by rw [hab]; exact lt_irrefl _)

theorem add_rank (k : Key F) (r : Ref) (l : SKL (Key F) (Option Ref)) : SKL.add (ρ.key k) (some (ρ.f r)) (ρ.rank l) = ρ.rank (SKL.add k (some r) l) :=
  SKL.add_prod (ψ := ρ.ref) ρ.key_lt k (some r) l

theorem add_rankM (k : KeyM F) (r : Ref) (l : SKL (KeyM F) (Option Ref)) :
    SKL.add (ρ.keyM k) (some (ρ.f r)) (ρ.rankM l) = ρ.rankM (SKL.add k (some r) l) :=
  SKL.add_prod (ψ := ρ.ref) ρ.keyM_lt k (some r) l

theorem index_rank (k : Key F) (r : Ref) (l : SKL (Key F) (Option Ref)) : SKL.index (ρ.key k) (some (ρ.f r)) (ρ.rank l) = SKL.index k (some r) l :=
  SKL.index_prod (ψ := ρ.ref) ρ.key_lt ρ.key_inj ρ.ref_inj k (some r) l

theorem remove_rank (k : Key F) (r : Ref) (l : SKL (Key F) (Option Ref)) :
    SKL.remove (ρ.key k) (some (ρ.f r)) (ρ.rank l) = (SKL.remove k (some r) l).map ρ.rank :=
  SKL.remove_prod (ψ := ρ.ref) ρ.key_lt ρ.key_inj ρ.ref_inj k (some r) l

theorem remove_rankM (k : KeyM F) (r : Ref) (l : SKL (KeyM F) (Option Ref)) :
    SKL.remove (ρ.keyM k) (some (ρ.f r)) (ρ.rankM l) = (SKL.remove k (some r) l).map ρ.rankM :=
  SKL.remove_prod (ψ := ρ.ref) ρ.keyM_lt ρ.keyM_inj ρ.ref_inj k (some r) l

theorem vals_rank (l : SKL (Key F) (Option Ref)) : (ρ.rank l).vals = l.vals.map ρ.ref := by
  unfold rank SKL.vals; rw [List.map_map, List.map_map]; rfl

theorem vals_rankM (l : SKL (KeyM F) (Option Ref)) : (ρ.rankM l).vals = l.vals.map ρ.ref := by
  unfold rankM SKL.vals; rw [List.map_map, List.map_map]; rfl

variable [Zero F] [One F] [Add F] [Sub F] [Mul F] [Div F] [Neg F] [NatCast F]

theorem poolKey_pool (p : Pool F) : poolKey (ρ.pool p) = ρ.key (poolKey p) := rfl
theorem poolKeyM_pool (rs : RS F) (p : Pool F) : poolKeyM rs (ρ.pool p) = ρ.keyM (poolKeyM rs p) := rfl

end Naming

variable [Zero F] [One F] [Add F] [Sub F] [Mul F] [Div F] [Neg F] [NatCast F] [FSum F]

/-- the two states differ only in the names of objects and pools -/
structure Renamed (ρ : Naming) (s s' : State F) : Prop where
  rs : s'.rs = s.rs
  relThr : s'.relThr = s.relThr
  absThr : s'.absThr = s.absThr
  extraFrac : s'.extraFrac = s.extraFrac
  totalStake : s'.totalStake = s.totalStake
  simultaneous : s'.simultaneous = s.simultaneous
  agents : s'.agents = s.agents.rename id ρ.agent
  pools : s'.pools = ρ.owned s.pools
  heap : ∀ r, s'.heap (ρ.f r) = ρ.pool (s.heap r)
  next : ∀ j, ρ.f (s.next + j) = s'.next + j
  rank : s'.rank = ρ.rank s.rank
  rankM : s'.rankM = ρ.rankM s.rankM
  idSeq : ∀ j, ρ.g (s.idSeq + 1 + j) = s'.idSeq + 1 + j
  idle : s'.idle = s.idle

namespace Renamed
variable {ρ : Naming} {s s' : State F}

theorem setPool (h : Renamed ρ s s') (r : Ref) (p : Pool F) : Renamed ρ (s.setPool r p) (s'.setPool (ρ.f r) (ρ.pool p)) :=
  { h with
    heap := by
      intro q
      unfold State.setPool
      simp only
      by_cases hq : q = r
      · subst hq; rw [Function.update_self, Function.update_self]
      · rw [Function.update_of_ne hq, Function.update_of_ne (fun he => hq (ρ.f_inj he))]; exact h.heap q }

theorem alloc (h : Renamed ρ s s') (p : Pool F) : Renamed ρ (s.alloc p) (s'.alloc (ρ.pool p)) :=
  { h with
    heap := by
      intro q
      unfold State.alloc
      simp only
      have hn : ρ.f s.next = s'.next := h.next 0
      by_cases hq : q = s.next
      · subst hq; rw [hn, Function.update_self, Function.update_self]
      · rw [Function.update_of_ne hq, Function.update_of_ne (fun he => hq (ρ.f_inj (he.trans hn.symm)))]; exact h.heap q
    next := by
      intro j
      have := h.next (1 + j)
      simp only [State.alloc]
      rw [Nat.add_assoc, this, Nat.add_assoc] }

theorem withRank (h : Renamed ρ s s') (l : SKL (Key F) (Option Ref)) : Renamed ρ { s with rank := l } { s' with rank := ρ.rank l } := { h with rank := rfl }
theorem withRankM (h : Renamed ρ s s') (l : SKL (KeyM F) (Option Ref)) : Renamed ρ { s with rankM := l } { s' with rankM := ρ.rankM l } :=
  { h with rankM := rfl }
theorem withPools (h : Renamed ρ s s') (d : Dict Ref) : Renamed ρ { s with pools := d } { s' with pools := ρ.owned d } := { h with pools := rfl }
theorem withIdle (h : Renamed ρ s s') (b : Bool) : Renamed ρ { s with idle := b } { s' with idle := b } := { h with idle := rfl }
theorem withAgents (h : Renamed ρ s s') (d : Dict (Agent F)) : Renamed ρ { s with agents := d } { s' with agents := d.rename id ρ.agent } :=
  { h with agents := rfl }

theorem setAgent (h : Renamed ρ s s') (a : Agent F) : Renamed ρ (s.setAgent a) (s'.setAgent (ρ.agent a)) :=
  { h with
    agents := by
      unfold State.setAgent
      simp only
      rw [h.agents]
      exact Dict.set_rename Function.injective_id _ _ _ }

theorem getAgent (h : Renamed ρ s s') (a : Nat) : s'.agents.getE a = (s.agents.getE a).map ρ.agent := by
  rw [h.agents]; exact Dict.getE_rename (g := id) Function.injective_id _ a

theorem getPool (h : Renamed ρ s s') (pid : Nat) : s'.pools.getE (ρ.g pid) = (s.pools.getE pid).map ρ.f := by
  rw [h.pools]; exact Dict.getE_rename ρ.g_inj _ pid

theorem rankingsOf (h : Renamed ρ s s') (me : Agent F) : RSE.rankingsOf s' (ρ.agent me) = (RSE.rankingsOf s me).map ρ.ref := by
  unfold RSE.rankingsOf
  have hp : (ρ.agent me).profile = me.profile := rfl
  rw [hp, h.rank, h.rankM, ρ.vals_rank, ρ.vals_rankM]
  cases me.profile <;> rfl

theorem removeRank (h : Renamed ρ s s') (r : Ref) : s'.rank.remove (poolKey (s'.heap (ρ.f r))) (some (ρ.f r)) =
    (s.rank.remove (poolKey (s.heap r)) (some r)).map ρ.rank := by
  rw [h.heap, h.rank, ρ.poolKey_pool, ρ.remove_rank]

theorem removeRankM (h : Renamed ρ s s') (r : Ref) : s'.rankM.remove (poolKeyM s'.rs (s'.heap (ρ.f r))) (some (ρ.f r)) =
    (s.rankM.remove (poolKeyM s.rs (s.heap r)) (some r)).map ρ.rankM := by
  rw [h.heap, h.rankM, h.rs, ρ.poolKeyM_pool, ρ.remove_rankM]

theorem addRank (h : Renamed ρ s s') (r : Ref) (l : SKL (Key F) (Option Ref)) : (ρ.rank l).add (poolKey (s'.heap (ρ.f r))) (some (ρ.f r)) =
    ρ.rank (l.add (poolKey (s.heap r)) (some r)) := by
  rw [h.heap, ρ.poolKey_pool, ρ.add_rank]

theorem addRankM (h : Renamed ρ s s') (r : Ref) (l : SKL (KeyM F) (Option Ref)) :
    (ρ.rankM l).add (poolKeyM s'.rs (s'.heap (ρ.f r))) (some (ρ.f r)) = ρ.rankM (l.add (poolKeyM s.rs (s.heap r)) (some r)) := by
  rw [h.heap, h.rs, ρ.poolKeyM_pool, ρ.add_rankM]

theorem setPools (h : Renamed ρ s s') (pid : Nat) (r : Ref) : s'.pools.set (ρ.g pid) (ρ.f r) = ρ.owned (s.pools.set pid r) := by
  rw [h.pools]; exact Dict.set_rename ρ.g_inj _ _ _

end Renamed

section Planning
variable {ρ : Naming} {s s' : State F}

/-! ### Utilities -/

theorem nonMyopicStake_alike {rs : RS F} {total : F} {heap heap' : Ref → Pool F} (hh : ∀ r, heap' (ρ.f r) = ρ.pool (heap r))
    (l : SKL (Key F) (Option Ref)) (r : Ref) : nonMyopicStake rs total heap' (ρ.rank l) (ρ.f r) = nonMyopicStake rs total heap l r := by
  unfold nonMyopicStake
  simp only [hh, Naming.poolKey_pool, Naming.index_rank, Naming.vals_rank]
  refine congrArg _ (funext fun rank => ?_)
  rw [← List.map_take, mapM_map (f := entrySat rs heap)]
  · rfl
  · intro x _
    cases x with
    | none => rfl
    | some q => simp only [Naming.ref, Option.map_some, entrySat, hh]; rfl

theorem filterMap_vals (ρ : Naming) {B : Type} (l : List (Option Ref)) (p : Ref → Option B) (p' : Ref → Option B) (h : ∀ r, p' (ρ.f r) = p r) :
    (l.map ρ.ref).filterMap (fun e => e.bind p') = l.filterMap (fun e => e.bind p) := by
  rw [List.filterMap_map]
  apply List.filterMap_congr
  intro x _
  cases x with
  | none => rfl
  | some r => exact h r

theorem foldl_add_alike {heap heap' : Ref → Pool F} (hh : ∀ r, heap' (ρ.f r) = ρ.pool (heap r)) (refs : List Ref) (l : SKL (Key F) (Option Ref)) :
    (refs.map ρ.f).foldl (fun l r => SKL.add (poolKey (heap' r)) (some r) l) (ρ.rank l) =
      ρ.rank (refs.foldl (fun l r => SKL.add (poolKey (heap r)) (some r) l) l) := by
  induction refs generalizing l with
  | nil => rfl
  | cons r t ih =>
    simp only [List.map_cons, List.foldl_cons, hh, Naming.poolKey_pool, Naming.add_rank]
    exact ih _

theorem tempRankings_alike (h : Renamed ρ s s') (me : Agent F) (owned : List Ref) :
    tempRankings s' (ρ.agent me) (owned.map ρ.f) = ρ.rank (tempRankings s me owned) := by
  rw [tempRankings_eq, tempRankings_eq]
  have e1 : (s'.rank.vals.filterMap id).filter (fun r => (s'.heap r).owner ≠ (ρ.agent me).id) =
      ((s.rank.vals.filterMap id).filter (fun r => (s.heap r).owner ≠ me.id)).map ρ.f := by
    rw [h.rank, ρ.vals_rank, List.filterMap_map]
    have e2 : (s.rank.vals.filterMap (id ∘ ρ.ref)) = (s.rank.vals.filterMap id).map ρ.f := by
      rw [List.map_filterMap]; rfl
    rw [e2, List.filter_map]
    congr 1
    apply List.filter_congr
    intro r _
    simp only [Function.comp, h.heap]; rfl
  rw [e1]
  have e3 := foldl_add_alike h.heap ((s.rank.vals.filterMap id).filter (fun r => (s.heap r).owner ≠ me.id)) []
  have e4 : ρ.rank ([] : SKL (Key F) (Option Ref)) = [] := rfl
  rw [e4] at e3
  rw [e3]
  exact foldl_add_alike h.heap owned _

theorem operatorUtilityFromStrategy_alike (h : Renamed ρ s s') (me : Agent F) (τ : Strategy F) :
    operatorUtilityFromStrategy s' (ρ.agent me) (ρ.strat τ) = operatorUtilityFromStrategy s me τ := by
  unfold operatorUtilityFromStrategy
  have hv : (ρ.strat τ).owned.vals = τ.owned.vals.map ρ.f := Dict.vals_rename _
  have hp : (ρ.agent me).profile = me.profile := rfl
  have h2 : accM (fun r => operatorUtility s'.rs (s'.heap r).stake (s'.heap r).pledge (s'.heap r).margin (s'.heap r).cost) (τ.owned.vals.map ρ.f) 0 =
      accM (fun r => operatorUtility s.rs (s.heap r).stake (s.heap r).pledge (s.heap r).margin (s.heap r).cost) τ.owned.vals 0 := by
    apply accM_map
    intro r _
    simp only [h.heap, h.rs]; rfl
  simp only [hp, hv]
  cases me.profile
  · simp only
    apply accM_map
    intro r _
    rw [tempRankings_alike h, h.rs, h.totalStake, nonMyopicStake_alike h.heap]
    simp only [h.heap]; rfl
  · exact h2
  · exact h2

theorem delegatorUtilityFromPool_alike (h : Renamed ρ s s') (me : Agent F) (σ : Strategy F) (r : Ref) (x : F) :
    delegatorUtilityFromPool s' (ρ.agent me) (ρ.strat σ) (ρ.f r) x = delegatorUtilityFromPool s me σ r x := by
  unfold delegatorUtilityFromPool
  have hp : (ρ.agent me).profile = me.profile := rfl
  have hd : (ρ.strat σ).allocs.get? (ρ.g (s.heap r).id) = σ.allocs.get? (s.heap r).id := by
    have : (ρ.strat σ).allocs = σ.allocs.rename ρ.g id := rfl
    rw [this, Dict.get?_rename ρ.g_inj, Option.map_id]; rfl
  simp only [h.heap, hp, h.rs, h.totalStake, h.rank, nonMyopicStake_alike h.heap]
  have e : ∀ p : Pool F, (ρ.pool p).id = ρ.g p.id := fun _ => rfl
  simp only [e, hd]
  rfl

theorem filterMap_pools (h : Renamed ρ s s') (d : Dict F) :
    (ρ.allocs d).filterMap (fun e => (s'.pools.get? e.1).map (fun r => (r, e.2))) =
      (d.filterMap (fun e => (s.pools.get? e.1).map (fun r => (r, e.2)))).map (fun e => (ρ.f e.1, e.2)) := by
  unfold Naming.allocs Dict.rename
  rw [List.filterMap_map, List.map_filterMap]
  apply List.filterMap_congr
  intro e _
  simp only [Function.comp, h.pools, Naming.owned, Dict.get?_rename ρ.g_inj, Option.map_map]
  rfl

theorem expectedUtility_alike (h : Renamed ρ s s') (me : Agent F) (σ τ : Strategy F) :
    expectedUtility s' (ρ.agent me) (ρ.strat σ) (ρ.strat τ) = expectedUtility s me σ τ := by
  unfold expectedUtility
  have hl : (ρ.strat τ).owned.length = τ.owned.length := Dict.length_rename _
  have ha : (ρ.strat τ).allocs = ρ.allocs τ.allocs := rfl
  rw [hl, operatorUtilityFromStrategy_alike h, ha, filterMap_pools h]
  refine congrArg _ (funext fun u => ?_)
  apply accM_map (φ := fun e : Ref × F => (ρ.f e.1, e.2))
  intro e _
  exact delegatorUtilityFromPool_alike h me σ e.1 e.2

theorem currentUtility_alike (h : Renamed ρ s s') (σ : Strategy F) : currentUtility s' (ρ.strat σ) = currentUtility s σ := by
  unfold currentUtility
  have hv : (ρ.strat σ).owned.vals = σ.owned.vals.map ρ.f := Dict.vals_rename _
  have ha : (ρ.strat σ).allocs = σ.allocs.map (fun e => (ρ.g e.1, e.2)) := rfl
  rw [hv, ha, accM_map (f := fun r => operatorUtility s.rs (s.heap r).stake (s.heap r).pledge (s.heap r).margin (s.heap r).cost)]
  · refine congrArg _ (funext fun u => ?_)
    apply accM_map (φ := fun e : Nat × F => (ρ.g e.1, e.2))
    intro e _
    simp only [h.getPool, h.rs]
    cases s.pools.getE e.1 with
    | error e => rfl
    | ok r =>
      change delegatorUtility s.rs e.2 (s'.heap (ρ.f r)).stake (s'.heap (ρ.f r)).pledge (s'.heap (ρ.f r)).margin (s'.heap (ρ.f r)).cost = _
      rw [h.heap]; rfl
  · intro r _
    simp only [h.heap, h.rs]; rfl

/-! ### Delegation -/

theorem updateDelegation_pool (ρ : Naming) (p : Pool F) (x : F) (a : Nat) : (ρ.pool p).updateDelegation x a = ρ.pool (p.updateDelegation x a) := rfl

theorem setDelegation_alike (h : Renamed ρ s s') (pid : Nat) (x : F) (a : Nat) :
    Rel (Renamed ρ) (setDelegation s pid x a) (setDelegation s' (ρ.g pid) x a) := by
  unfold setDelegation
  refine Rel.bind (Rel.of_map (h.getPool pid)) ?_
  rintro r _ _ _ rfl
  rw [h.heap, h.rs, h.rankM, ρ.poolKeyM_pool, ρ.remove_rankM]
  refine Rel.bind (Rel.of_map rfl) ?_
  rintro l _ _ _ rfl
  simp only [updateDelegation_pool, Naming.poolKeyM_pool, Naming.add_rankM]
  exact (h.setPool r _).withRankM _

theorem setDelegations_alike (a : Nat) : ∀ (l : List (Nat × F)) {s s' : State F}, Renamed ρ s s' →
    Rel (Renamed ρ) (setDelegations s a l) (setDelegations s' a (l.map (fun e => (ρ.g e.1, e.2))))
  | [], s, s', h => h
  | (pid, x) :: t, s, s', h => by
    simp only [List.map_cons, setDelegations]
    refine Rel.bind (setDelegation_alike h pid x a) ?_
    intro s₁ s₁' _ _ h₁
    exact setDelegations_alike a t h₁

theorem greedy_renamed {rs : RS F} {heap heap' : Ref → Pool F} (hh : ∀ r, heap' (ρ.f r) = ρ.pool (heap r)) :
    ∀ (l : List Ref) (stake : F) (best : Option Ref) (d : Dict F), greedy rs heap' (l.map ρ.f) stake (ρ.ref best) (ρ.allocs d) =
      ((greedy rs heap l stake best d).1, ρ.ref (greedy rs heap l stake best d).2.1, ρ.allocs (greedy rs heap l stake best d).2.2)
  | [], _, _, _ => rfl
  | r :: t, stake, best, d => by
    simp only [List.map_cons, greedy, hh]
    have e1 : (ρ.pool (heap r)).pledge = (heap r).pledge := rfl
    have e2 : (ρ.pool (heap r)).stake = (heap r).stake := rfl
    have e3 : (ρ.pool (heap r)).id = ρ.g (heap r).id := rfl
    have e4 : ∀ x : F, (ρ.allocs d).set (ρ.g (heap r).id) x = ρ.allocs (d.set (heap r).id x) := fun x => Dict.set_rename (φ := id) ρ.g_inj _ _ _
    rw [e1, e2, e3, e4]
    split
    · cases best with
      | none => exact greedy_renamed hh t stake (some r) d
      | some b => exact greedy_renamed hh t stake (some b) d
    · split
      · rfl
      · exact greedy_renamed hh t _ _ _

theorem greedyAllocations_renamed {rs : RS F} {heap heap' : Ref → Pool F} (hh : ∀ r, heap' (ρ.f r) = ρ.pool (heap r)) (l : List Ref) (stake : F) :
    greedyAllocations rs heap' (l.map ρ.f) stake = ρ.allocs (greedyAllocations rs heap l stake) := by
  unfold greedyAllocations
  have := greedy_renamed (rs := rs) hh l stake none []
  have e0 : ρ.ref none = none := rfl
  have e1 : ρ.allocs ([] : Dict F) = [] := rfl
  rw [e0, e1] at this
  rw [this]
  obtain ⟨rest, best, d, hg⟩ : ∃ rest best d, greedy rs heap l stake none [] = (rest, best, d) := ⟨_, _, _, rfl⟩
  rw [hg]
  cases best with
  | none => rfl
  | some b =>
    simp only [Naming.ref, Option.map_some, hh]
    split
    · exact Dict.set_rename (φ := id) ρ.g_inj _ _ _
    · rfl

theorem eligiblePools_alike (h : Renamed ρ s s') (me : Agent F) : eligiblePools s' (ρ.agent me) = (eligiblePools s me).map ρ.f := by
  unfold eligiblePools
  rw [h.rankingsOf, List.filterMap_map, List.map_filterMap]
  apply List.filterMap_congr
  intro e _
  cases e with
  | none => rfl
  | some r =>
    simp only [Function.comp, Naming.ref, Option.map_some, h.heap]
    have : ((ρ.pool (s.heap r)).owner ≠ (ρ.agent me).id ∧ (ρ.pool (s.heap r)).isPrivate = false) ↔ ((s.heap r).owner ≠ me.id ∧ (s.heap r).isPrivate = false) := Iff.rfl
    by_cases hc : (s.heap r).owner ≠ me.id ∧ (s.heap r).isPrivate = false
    · rw [if_pos (this.2 hc), if_pos hc]; rfl
    · rw [if_neg (fun hn => hc (this.1 hn)), if_neg hc]; rfl

theorem determineStakeAllocations_alike (h : Renamed ρ s s') (me : Agent F) (σ : Strategy F) (stake : F) :
    Rel (fun p p' => Renamed ρ p.1 p'.1 ∧ p'.2 = p.2.map ρ.allocs) (determineStakeAllocations s me σ stake)
      (determineStakeAllocations s' (ρ.agent me) (ρ.strat σ) stake) := by
  unfold determineStakeAllocations
  simp only [eligiblePools_alike h, List.length_map]
  by_cases hl : (eligiblePools s me).length = 0
  · rw [if_pos hl, if_pos hl]
    exact ⟨h, rfl⟩
  · rw [if_neg hl, if_neg hl]
    have ea : (ρ.strat σ).allocs = σ.allocs.map (fun e => (ρ.g e.1, e.2)) := rfl
    have e1 : (ρ.strat σ).allocs.map (fun e => (e.1, (0 : F))) = (σ.allocs.map (fun e => (e.1, (0 : F)))).map (fun e => (ρ.g e.1, e.2)) := by
      rw [ea, List.map_map, List.map_map]; rfl
    rw [e1]
    refine Rel.bind (setDelegations_alike me.id _ h) ?_
    intro s₁ s₁' _ _ h₁
    rw [ea]
    refine Rel.bind (setDelegations_alike me.id _ h₁) ?_
    intro s₂ s₂' _ _ h₂
    refine ⟨h₂, ?_⟩
    simp only [h₁.rs, greedyAllocations_renamed h₁.heap]
    rfl

theorem findDelegationMove_alike (h : Renamed ρ s s') (me : Agent F) (σ : Strategy F) (stake : F) :
    Rel (fun p p' => Renamed ρ p.1 p'.1 ∧ p'.2 = ρ.strat p.2) (findDelegationMove s me σ stake)
      (findDelegationMove s' (ρ.agent me) (ρ.strat σ) stake) := by
  unfold findDelegationMove
  split
  · exact ⟨h, rfl⟩
  · refine Rel.bind (determineStakeAllocations_alike h me σ stake) ?_
    rintro ⟨s₁, d⟩ ⟨s₁', d'⟩ _ _ ⟨h₁, h₂⟩
    refine ⟨h₁, ?_⟩
    simp only at h₂
    subst h₂
    cases d <;> rfl

/-! ### Operating pools -/

theorem fixedPools_alike (h : Renamed ρ s s') (me : Agent F) : fixedPools s' (ρ.agent me) = (fixedPools s me).map ρ.ref := by
  unfold fixedPools
  rw [h.rankingsOf, List.filter_map]
  congr 1
  apply List.filter_congr
  intro e _
  cases e with
  | none => rfl
  | some r => simp only [Function.comp, Naming.ref, Option.map_some, h.heap]; rfl

theorem pyIndex_map {α β : Type} (φ : α → β) (l : List α) (i : Int) : pyIndex (l.map φ) i = (pyIndex l i).map φ := by
  unfold pyIndex
  simp only [List.length_map, List.getElem?_map]
  generalize (if i < 0 then i + (l.length : Int) else i) = j
  by_cases hj : j < 0
  · rw [if_pos hj, if_pos hj]; rfl
  · rw [if_neg hj, if_neg hj]
    cases l[j.toNat]? <;> rfl

theorem marginNM_alike (h : Renamed ρ s s') (me : Agent F) (pledge cost pp : F) (t : Nat) :
    marginNM s' (ρ.agent me) pledge cost pp t = marginNM s me pledge cost pp t := by
  unfold marginNM
  rw [fixedPools_alike h, h.rs, pyIndex_map]
  cases pyIndex (fixedPools s me) ((s.rs.k : Int) - (t : Int)) with
  | error e => rfl
  | ok target =>
    cases target with
    | none => rfl
    | some r =>
      simp only [Except.map, Naming.ref, Option.map_some, bind, Except.bind, h.heap]
      rfl

theorem marginM_alike (h : Renamed ρ s s') (me : Agent F) (pledge cost profit : F) (t : Nat) :
    marginM s' (ρ.agent me) pledge cost profit t = marginM s me pledge cost profit t := by
  unfold marginM
  rw [fixedPools_alike h, h.rs, pyIndex_map]
  cases pyIndex (fixedPools s me) ((s.rs.k : Int) - (t : Int)) with
  | error e => rfl
  | ok target =>
    cases target with
    | none => rfl
    | some r =>
      simp only [Except.map, Naming.ref, Option.map_some, bind, Except.bind, h.heap]
      rfl

theorem marginsAndUtility_alike (h : Renamed ρ s s') (me : Agent F) (σ : Strategy F) :
    marginsAndUtility s' (ρ.agent me) (ρ.strat σ) = marginsAndUtility s me σ := by
  funext n
  unfold marginsAndUtility
  have hc : (ρ.agent me).cost = me.cost := rfl
  have hs : (ρ.agent me).stake = me.stake := rfl
  have hp : (ρ.agent me).profile = me.profile := rfl
  have hv : (ρ.strat σ).owned.vals = σ.owned.vals.map ρ.f := Dict.vals_rename _
  have e1 : ∀ pledge cost pp, marginNM s' (ρ.agent me) pledge cost pp = marginNM s me pledge cost pp :=
    fun pledge cost pp => funext fun t => marginNM_alike h me pledge cost pp t
  have e2 : ∀ pledge cost pp, marginM s' (ρ.agent me) pledge cost pp = marginM s me pledge cost pp :=
    fun pledge cost pp => funext fun t => marginM_alike h me pledge cost pp t
  have e3 : (σ.owned.vals.map ρ.f).foldl (fun acc r => acc + (s'.heap r).stake) 0 = σ.owned.vals.foldl (fun acc r => acc + (s.heap r).stake) 0 := by
    rw [List.foldl_map]
    congr 1
    funext acc r
    rw [h.heap]; rfl
  simp only [hc, hs, hp, h.rs, h.extraFrac, hv, e1, e2, e3]

theorem calculateMargin_alike (h : Renamed ρ s s') (me : Agent F) (p : Pool F) : calculateMargin s' (ρ.agent me) (ρ.pool p) = calculateMargin s me p := by
  unfold calculateMargin
  have e1 : (ρ.pool p).isPrivate = p.isPrivate := rfl
  have e2 : (ρ.pool p).pp = p.pp := rfl
  rw [e1, e2, h.rankingsOf, h.rs, pyIndex_map]
  split
  · rfl
  · cases pyIndex (rankingsOf s me) ((s.rs.k : Int) - 1) with
    | error e => rfl
    | ok target =>
      cases target with
      | none => rfl
      | some r =>
        simp only [Except.map, Naming.ref, Option.map_some, bind, Except.bind, h.heap]
        rfl

theorem marginAt_alike (h : Renamed ρ s s') (me : Agent F) (margins : List F) (i : Nat) (p : Pool F) :
    marginAt s' (ρ.agent me) margins i (ρ.pool p) = marginAt s me margins i p := by
  unfold marginAt
  cases margins[i]? with
  | some m => rfl
  | none => exact calculateMargin_alike h me p

theorem topPoolIds_alike {heap heap' : Ref → Pool F} (hh : ∀ r, heap' (ρ.f r) = ρ.pool (heap r)) (d : Dict Ref) (n : Nat) :
    topPoolIds heap' (ρ.owned d) n = (topPoolIds heap d n).map ρ.g := by
  unfold topPoolIds Naming.owned Dict.rename
  rw [← List.map_insertionSort (r := fun a b : Nat × Ref => keepKey heap b ≤ keepKey heap a), ← List.map_take, List.map_map, List.map_map]
  · rfl
  · intro a _ b _
    unfold keepKey
    simp only [hh]
    have e : ∀ p : Pool F, (ρ.pool p).des = p.des ∧ (ρ.pool p).pp = p.pp ∧ (ρ.pool p).stake = p.stake := fun _ => ⟨rfl, rfl, rfl⟩
    have hg : ∀ x y : Nat, (-(ρ.g x : Int) < -(ρ.g y : Int) ↔ -(x : Int) < -(y : Int)) ∧ (-(ρ.g x : Int) ≤ -(ρ.g y : Int) ↔ -(x : Int) ≤ -(y : Int)) := by
      intro x y
      have h1 := ρ.g_mono.lt_iff_lt (a := y) (b := x)
      have h2 := ρ.g_mono.le_iff_le (a := y) (b := x)
      omega
    simp only [Prod.Lex.toLex_le_toLex, e, (hg _ _).2]

theorem copyPools_alike : ∀ (l : List (Nat × Ref)) {s s' : State F}, Renamed ρ s s' →
    Renamed ρ (copyPools s l).1 (copyPools s' (l.map (fun e => (ρ.g e.1, ρ.f e.2)))).1 ∧
      (copyPools s' (l.map (fun e => (ρ.g e.1, ρ.f e.2)))).2 = ρ.owned (copyPools s l).2
  | [], s, s', h => ⟨h, rfl⟩
  | (pid, r) :: t, s, s', h => by
    simp only [List.map_cons, copyPools]
    have h₁ : Renamed ρ (s.alloc (s.heap r)) (s'.alloc (s'.heap (ρ.f r))) := by rw [h.heap]; exact h.alloc _
    obtain ⟨k1, k2⟩ := copyPools_alike t h₁
    refine ⟨k1, ?_⟩
    rw [k2]
    have : s'.next = ρ.f s.next := (h.next 0).symm
    rw [this]; rfl

theorem determinePoolsToKeep_alike {ord ord' : List Nat → List Nat} (ho : ∀ l, ord' (l.map ρ.g) = (ord l).map ρ.g) (h : Renamed ρ s s') (σ : Strategy F)
    (n : Nat) : Rel (fun p p' => Renamed ρ p.1 p'.1 ∧ p'.2 = ρ.owned p.2) (determinePoolsToKeep ord s σ n) (determinePoolsToKeep ord' s' (ρ.strat σ) n) := by
  unfold determinePoolsToKeep
  have hl : (ρ.strat σ).owned.length = σ.owned.length := Dict.length_rename _
  have eo : (ρ.strat σ).owned = ρ.owned σ.owned := rfl
  rw [hl]
  split
  · simp only [eo, topPoolIds_alike h.heap, ho]
    have hm : ∀ l : List Nat, Rel (fun a b => b = a.map (fun e : Nat × Ref => (ρ.g e.1, ρ.f e.2)))
        (l.mapM (fun pid => do
          let r ← σ.owned.getE pid
          return (pid, r)))
        ((l.map ρ.g).mapM (fun pid => do
          let r ← (ρ.owned σ.owned).getE pid
          return (pid, r))) := by
      intro l
      induction l with
      | nil => exact rfl
      | cons x t ih =>
        simp only [List.map_cons, List.mapM_cons]
        refine Rel.bind (R := fun a b => b = (ρ.g a.1, ρ.f a.2)) (Rel.bind (Rel.of_map (Dict.getE_rename ρ.g_inj _ _)) ?_) ?_
        · rintro r _ _ _ rfl
          exact rfl
        · rintro a _ _ _ rfl
          refine Rel.bind ih ?_
          rintro l _ _ _ rfl
          exact rfl
    refine Rel.bind (hm _) ?_
    rintro l _ _ _ rfl
    exact copyPools_alike l h
  · exact copyPools_alike σ.owned h

theorem reworkPool_pool (ρ : Naming) (rs : RS F) (pledge cost : F) (p : Pool F) : reworkPool rs pledge cost (ρ.pool p) = ρ.pool (reworkPool rs pledge cost p) := rfl

theorem reworkPools_alike (me : Agent F) (pledge cost : F) (margins : List F) : ∀ (l : List (Nat × Ref)) (i : Nat) {s s' : State F}, Renamed ρ s s' →
    Rel (Renamed ρ) (reworkPools me pledge cost margins s i l)
      (reworkPools (ρ.agent me) pledge cost margins s' i (l.map (fun e => (ρ.g e.1, ρ.f e.2))))
  | [], i, s, s', h => h
  | (pid, r) :: t, i, s, s', h => by
    simp only [List.map_cons, reworkPools, h.heap, h.rs, reworkPool_pool, marginAt_alike h]
    refine Rel.bind (Rel.of_eq' rfl) ?_
    rintro m _ _ _ rfl
    exact reworkPools_alike me pledge cost margins t (i + 1) (h.setPool r _)

theorem draftPools_alike (me : Agent F) (pledge cost : F) (margins : List F) : ∀ (cnt i : Nat) (owned : Dict Ref) {s s' : State F}, Renamed ρ s s' →
    Rel (fun p p' => Renamed ρ p.1 p'.1 ∧ p'.2 = ρ.owned p.2) (draftPools me pledge cost margins cnt s i owned)
      (draftPools (ρ.agent me) pledge cost margins cnt s' i (ρ.owned owned))
  | 0, i, owned, s, s', h => ⟨h, rfl⟩
  | cnt + 1, i, owned, s, s', h => by
    unfold draftPools
    have hid : s'.idSeq + 1 = ρ.g (s.idSeq + 1) := (h.idSeq 0).symm
    have h₀ : Renamed ρ { s with idSeq := s.idSeq + 1 } { s' with idSeq := s'.idSeq + 1 } :=
      { h with
        idSeq := by
          intro j
          have := h.idSeq (1 + j)
          simp only
          rw [Nat.add_assoc (s.idSeq + 1), this, Nat.add_assoc (s'.idSeq + 1)] }
    have hc : Pool.create (s'.idSeq + 1) cost pledge (ρ.agent me).id s'.rs (decide (pledge ≥ s'.rs.sat pledge)) =
        ρ.pool (Pool.create (s.idSeq + 1) cost pledge me.id s.rs (decide (pledge ≥ s.rs.sat pledge))) := by rw [hid, h.rs]; rfl
    simp only [hc]
    rw [marginAt_alike h₀]
    refine Rel.bind (Rel.of_eq' rfl) ?_
    rintro m _ _ _ rfl
    have hn : s'.next = ρ.f s.next := (h.next 0).symm
    have ho : (ρ.owned owned).set (s'.idSeq + 1) s'.next = ρ.owned (owned.set (s.idSeq + 1) s.next) := by
      rw [hid, hn]; exact Dict.set_rename ρ.g_inj _ _ _
    rw [ho]
    exact draftPools_alike me pledge cost margins cnt (i + 1) _ (h₀.alloc _)

theorem findOperatorMove_alike (h : Renamed ρ s s') (me : Agent F) (σ : Strategy F) (n : Nat) (owned : Dict Ref) (margins : List F) :
    Rel (fun p p' => Renamed ρ p.1 p'.1 ∧ p'.2 = ρ.strat p.2) (findOperatorMove s me σ n owned margins)
      (findOperatorMove s' (ρ.agent me) (ρ.strat σ) n (ρ.owned owned) margins) := by
  unfold findOperatorMove
  have hst : (ρ.agent me).stake = me.stake := rfl
  have hco : (ρ.agent me).cost = me.cost := rfl
  have hl : (ρ.owned owned).length = owned.length := Dict.length_rename _
  rw [hst, hco, hl, h.rs, h.extraFrac]
  refine Rel.bind (Rel.of_eq' rfl) ?_
  rintro pledge _ _ _ rfl
  refine Rel.bind (Rel.of_eq' rfl) ?_
  rintro cost _ _ _ rfl
  refine Rel.bind (reworkPools_alike me _ _ margins owned 0 h) ?_
  intro s₁ s₁' _ _ h₁
  refine Rel.bind (draftPools_alike me _ _ margins _ _ owned h₁) ?_
  rintro ⟨s₂, o⟩ ⟨s₂', o'⟩ _ _ ⟨h₂, h₃⟩
  simp only at h₂ h₃
  subst h₃
  simp only
  split
  · refine Rel.bind (findDelegationMove_alike h₂ me σ _) ?_
    rintro ⟨s₃, d⟩ ⟨s₃', d'⟩ _ _ ⟨h₃, h₄⟩
    simp only at h₃ h₄
    subst h₄
    exact ⟨h₃, rfl⟩
  · exact ⟨h₂, rfl⟩

theorem choosePoolStrategy_alike {ord ord' : List Nat → List Nat} (ho : ∀ l, ord' (l.map ρ.g) = (ord l).map ρ.g) (h : Renamed ρ s s') (me : Agent F)
    (σ : Strategy F) : Rel (fun p p' => Renamed ρ p.1 p'.1 ∧ p'.2.1 = p.2.1 ∧ p'.2.2 = ρ.strat p.2.2) (choosePoolStrategy ord s me σ)
      (choosePoolStrategy ord' s' (ρ.agent me) (ρ.strat σ)) := by
  unfold choosePoolStrategy
  rw [marginsAndUtility_alike h, h.rs]
  refine Rel.bind (Rel.of_eq' rfl) ?_
  rintro ⟨n, margins⟩ _ _ _ rfl
  refine Rel.bind (determinePoolsToKeep_alike ho h σ n) ?_
  rintro ⟨s₁, c⟩ ⟨s₁', c'⟩ _ _ ⟨h₁, h₂⟩
  simp only at h₁ h₂
  subst h₂
  refine Rel.bind (findOperatorMove_alike h₁ me σ n c margins) ?_
  rintro ⟨s₂, τ⟩ ⟨s₂', τ'⟩ _ _ ⟨h₂, h₃⟩
  simp only at h₂ h₃
  subst h₃
  simp only [expectedUtility_alike h₂]
  refine Rel.bind (Rel.of_eq' rfl) ?_
  rintro u _ _ _ rfl
  exact ⟨h₂, rfl, rfl⟩

theorem planMove_alike {ord ord' : List Nat → List Nat} (ho : ∀ l, ord' (l.map ρ.g) = (ord l).map ρ.g) (h : Renamed ρ s s') (me : Agent F)
    (σ : Strategy F) : Rel (fun p p' => Renamed ρ p.1 p'.1 ∧ p'.2 = p.2.map ρ.strat) (planMove ord s me σ) (planMove ord' s' (ρ.agent me) (ρ.strat σ)) := by
  unfold planMove
  rw [currentUtility_alike h, expectedUtility_alike h, h.relThr, h.absThr]
  refine Rel.bind (Rel.of_eq' rfl) ?_
  rintro cur _ _ _ rfl
  refine Rel.bind (Rel.of_eq' rfl) ?_
  rintro exp _ _ _ rfl
  refine Rel.bind (findDelegationMove_alike h me σ me.stake) ?_
  rintro ⟨s₁, δ⟩ ⟨s₁', δ'⟩ _ _ ⟨h₁, h₂⟩
  simp only at h₁ h₂
  subst h₂
  simp only [expectedUtility_alike h₁]
  refine Rel.bind (Rel.of_eq' rfl) ?_
  rintro du _ _ _ rfl
  refine Rel.bind (choosePoolStrategy_alike ho h₁ me σ) ?_
  rintro ⟨s₂, ou, ω⟩ ⟨s₂', ou', ω'⟩ _ _ ⟨h₂, h₃, h₄⟩
  simp only at h₂ h₃ h₄
  subst h₃ h₄
  refine ⟨h₂, ?_⟩
  simp only
  cases pickMove (augmented s.relThr s.absThr _ _) _ _ <;> rfl

theorem updateStrategy_alike {ord ord' : List Nat → List Nat} (ho : ∀ l, ord' (l.map ρ.g) = (ord l).map ρ.g) (h : Renamed ρ s s') (aid : Nat) :
    Rel (Renamed ρ) (updateStrategy ord s aid) (updateStrategy ord' s' aid) := by
  unfold updateStrategy
  refine Rel.bind (Rel.of_map (h.getAgent aid)) ?_
  rintro ⟨id, stake, cost, profile, strategy, newStrategy⟩ _ _ _ rfl
  have key : ∀ (p : Profile) (σ : Strategy F), Rel (Renamed ρ)
      (do
        let (s, ν) ← planMove ord s ⟨id, stake, cost, p, some σ, newStrategy⟩ σ
        return s.setAgent ⟨id, stake, cost, p, some σ, ν⟩)
      (do
        let (s, ν) ← planMove ord' s' (ρ.agent ⟨id, stake, cost, p, some σ, newStrategy⟩) (ρ.strat σ)
        return s.setAgent ⟨id, stake, cost, p, some (ρ.strat σ), ν⟩) := by
    intro p σ
    refine Rel.bind (planMove_alike ho h _ σ) ?_
    rintro ⟨s₁, ν⟩ ⟨s₁', ν'⟩ _ _ ⟨h₁, h₂⟩
    simp only at h₁ h₂
    subst h₂
    exact h₁.setAgent ⟨id, stake, cost, p, some σ, ν⟩
  cases profile with
  | abstainer => exact h
  | nonMyopic => cases strategy with
    | none => exact rfl
    | some σ => exact key .nonMyopic σ
  | myopic => cases strategy with
    | none => exact rfl
    | some σ => exact key .myopic σ

end Planning

/-! ### Executing -/

section Executing
variable {ρ : Naming}

theorem iterM_alike {α β : Type} {f : State F → α → Py (State F)} {f' : State F → β → Py (State F)} {φ : α → β}
    (hf : ∀ s s' a, Renamed ρ s s' → Rel (Renamed ρ) (f s a) (f' s' (φ a))) : ∀ (l : List α) {s s' : State F}, Renamed ρ s s' →
    Rel (Renamed ρ) (iterM f s l) (iterM f' s' (l.map φ))
  | [], _, _, h => h
  | a :: t, s, s', h => by
    simp only [List.map_cons, iterM]
    exact Rel.bind (hf s s' a h) (fun s₁ s₁' _ _ h₁ => iterM_alike hf t h₁)

theorem undelegateAll_alike (r : Ref) : ∀ (l : List Nat) {s s' : State F}, Renamed ρ s s' →
    Rel (Renamed ρ) (undelegateAll s r l) (undelegateAll s' (ρ.f r) l)
  | [], _, _, h => h
  | aid :: t, s, s', h => by
    unfold undelegateAll
    refine Rel.bind (Rel.of_map (h.getAgent aid)) ?_
    rintro a _ _ _ rfl
    have hs : (ρ.agent a).strategy = a.strategy.map ρ.strat := rfl
    rw [hs]
    cases hσ : a.strategy with
    | none => exact rfl
    | some σ =>
      simp only [Option.map_some, h.heap]
      have e : (ρ.strat σ).allocs.popE (ρ.pool (s.heap r)).id = (σ.allocs.popE (s.heap r).id).map ρ.allocs := Dict.popE_rename (φ := id) ρ.g_inj _ _
      rw [e]
      refine Rel.bind (Rel.of_map rfl) ?_
      rintro allocs _ _ _ rfl
      have h₁ := h.setAgent { a with strategy := some { σ with allocs := allocs } }
      have h₂ := h₁.setPool r ((s.heap r).updateDelegation 0 aid)
      have e2 : (s'.setAgent { ρ.agent a with strategy := some { ρ.strat σ with allocs := ρ.allocs allocs } }).heap (ρ.f r) = ρ.pool (s.heap r) := h.heap r
      simp only [e2]
      exact undelegateAll_alike r t h₂

theorem unstage_agent (ρ : Naming) (pid : Nat) (a : Agent F) : unstage (ρ.g pid) (ρ.agent a) = ρ.agent (unstage pid a) := by
  unfold unstage Naming.agent
  simp only [Option.map_map]
  congr 1
  cases a.newStrategy with
  | none => rfl
  | some ν =>
    simp only [Option.map_some, Function.comp, Naming.strat, Option.some.injEq, Strategy.mk.injEq, and_true]
    exact Dict.erase_rename ρ.g_inj _ _

theorem removeDelegations_alike (r : Ref) {s s' : State F} (h : Renamed ρ s s') : Rel (Renamed ρ) (removeDelegations s r) (removeDelegations s' (ρ.f r)) := by
  unfold removeDelegations
  have e : (s'.heap (ρ.f r)).delegators.keys = (s.heap r).delegators.keys := by rw [h.heap]; rfl
  rw [e]
  refine Rel.bind (undelegateAll_alike r _ h) ?_
  intro s₁ s₁' _ _ h₁
  have hsim := h₁.simultaneous
  by_cases hc : s₁.simultaneous = true
  · rw [if_pos hc, if_pos (hsim.trans hc)]
    have e2 : s₁'.agents.map (fun e => (e.1, unstage (s₁'.heap (ρ.f r)).id e.2)) =
        Dict.rename id ρ.agent (s₁.agents.map (fun e => (e.1, unstage (s₁.heap r).id e.2))) := by
      rw [h₁.agents, h₁.heap]
      unfold Dict.rename
      rw [List.map_map, List.map_map]
      apply List.map_congr_left
      intro e _
      simp only [Function.comp]
      exact congrArg _ (unstage_agent ρ _ _)
    rw [e2]
    exact h₁.withAgents _
  · rw [if_neg hc, if_neg (fun hn => hc (hsim.symm.trans hn))]
    exact h₁

theorem closePool_alike {s s' : State F} (pid : Nat) (h : Renamed ρ s s') : Rel (Renamed ρ) (closePool s pid) (closePool s' (ρ.g pid)) := by
  unfold closePool
  refine Rel.bind (Rel.of_map (h.getPool pid)) ?_
  rintro r _ _ _ rfl
  refine Rel.bind (Rel.of_map (h.removeRank r)) ?_
  rintro l _ _ _ rfl
  refine Rel.bind (Rel.of_map (h.removeRankM r)) ?_
  rintro lm _ _ _ rfl
  refine Rel.bind (removeDelegations_alike r ((h.withRank l).withRankM lm)) ?_
  intro s₁ s₁' _ _ h₁
  have e : s₁'.pools.popE (ρ.g pid) = (s₁.pools.popE pid).map ρ.owned := by rw [h₁.pools]; exact Dict.popE_rename ρ.g_inj _ _
  rw [e]
  refine Rel.bind (Rel.of_map rfl) ?_
  rintro d _ _ _ rfl
  exact h₁.withPools d

theorem updatePool_alike {s s' : State F} (aid pid : Nat) (h : Renamed ρ s s') : Rel (Renamed ρ) (updatePool s aid pid) (updatePool s' aid (ρ.g pid)) := by
  unfold updatePool
  refine Rel.bind (Rel.of_map (h.getAgent aid)) ?_
  rintro me _ _ _ rfl
  have hs : (ρ.agent me).newStrategy = me.newStrategy.map ρ.strat := rfl
  rw [hs]
  cases me.newStrategy with
  | none => exact rfl
  | some ν =>
    simp only [Option.map_some]
    have e : (ρ.strat ν).owned.getE (ρ.g pid) = (ν.owned.getE pid).map ρ.f := Dict.getE_rename ρ.g_inj _ _
    rw [e]
    refine Rel.bind (Rel.of_map rfl) ?_
    rintro r' _ _ _ rfl
    refine Rel.bind (R := Renamed ρ) ?_ ?_
    · rw [h.heap]
      have : ((ρ.pool (s.heap r')).isPrivate = true ∧ (ρ.pool (s.heap r')).stake > (ρ.pool (s.heap r')).pledge) ↔
          ((s.heap r').isPrivate = true ∧ (s.heap r').stake > (s.heap r').pledge) := Iff.rfl
      by_cases hc : (s.heap r').isPrivate = true ∧ (s.heap r').stake > (s.heap r').pledge
      · rw [if_pos hc, if_pos (this.2 hc)]; exact removeDelegations_alike r' h
      · rw [if_neg hc, if_neg (fun hn => hc (this.1 hn))]; exact h
    · intro s₁ s₁' _ _ h₁
      have h₂ : Renamed ρ { s₁ with pools := s₁.pools.set pid r' } { s₁' with pools := s₁'.pools.set (ρ.g pid) (ρ.f r') } := by
        rw [h₁.setPools]; exact h₁.withPools _
      refine Rel.bind (Rel.of_map (h₂.getAgent aid)) ?_
      rintro me₂ _ _ _ rfl
      have hs₂ : (ρ.agent me₂).strategy = me₂.strategy.map ρ.strat := rfl
      rw [hs₂]
      cases me₂.strategy with
      | none => exact rfl
      | some σ =>
        simp only [Option.map_some]
        have e2 : (ρ.strat σ).owned.getE (ρ.g pid) = (σ.owned.getE pid).map ρ.f := Dict.getE_rename ρ.g_inj _ _
        refine Rel.bind (Rel.of_map e2) ?_
        rintro r _ _ _ rfl
        refine Rel.bind (Rel.of_map (h₂.removeRank r)) ?_
        rintro l _ _ _ rfl
        refine Rel.bind (Rel.of_map (h₂.removeRankM r)) ?_
        rintro lm _ _ _ rfl
        have e3 := h₂.addRank r' l
        have e4 := h₂.addRankM r' lm
        have e5 := h₂.setPools pid r'
        simp only at e3 e4 e5
        rw [e3, e4, e5]
        exact ((h₂.withRank _).withRankM _).withPools _

theorem openPool_alike {s s' : State F} (aid pid : Nat) (h : Renamed ρ s s') : Rel (Renamed ρ) (openPool s aid pid) (openPool s' aid (ρ.g pid)) := by
  unfold openPool
  refine Rel.bind (Rel.of_map (h.getAgent aid)) ?_
  rintro me _ _ _ rfl
  have hs : (ρ.agent me).strategy = me.strategy.map ρ.strat := rfl
  rw [hs]
  cases me.strategy with
  | none => exact rfl
  | some σ =>
    simp only [Option.map_some]
    have e2 : (ρ.strat σ).owned.getE (ρ.g pid) = (σ.owned.getE pid).map ρ.f := Dict.getE_rename ρ.g_inj _ _
    refine Rel.bind (Rel.of_map e2) ?_
    rintro r _ _ _ rfl
    have e3 := h.addRank r s.rank
    have e4 := h.addRankM r s.rankM
    rw [← h.rank] at e3
    rw [← h.rankM] at e4
    rw [e3, e4, h.setPools]
    exact ((h.withPools (s.pools.set pid r)).withRank (s.rank.add (poolKey (s.heap r)) (some r))).withRankM
      (s.rankM.add (poolKeyM s.rs (s.heap r)) (some r))

theorem executeStrategy_alike {ord ord' : List Nat → List Nat} (ho : ∀ l, ord' (l.map ρ.g) = (ord l).map ρ.g) {s s' : State F} (h : Renamed ρ s s')
    (aid : Nat) : Rel (Renamed ρ) (executeStrategy ord s aid) (executeStrategy ord' s' aid) := by
  unfold executeStrategy
  refine Rel.bind (Rel.of_map (h.getAgent aid)) ?_
  rintro me _ _ _ rfl
  have hs : (ρ.agent me).strategy = me.strategy.map ρ.strat := rfl
  have hn : (ρ.agent me).newStrategy = me.newStrategy.map ρ.strat := rfl
  rw [hs, hn]
  cases me.strategy with
  | none => cases me.newStrategy <;> exact rfl
  | some σ =>
    cases me.newStrategy with
    | none => exact rfl
    | some ν =>
      simp only [Option.map_some]
      have ea : ∀ τ : Strategy F, (ρ.strat τ).allocs = τ.allocs.rename ρ.g id := fun _ => rfl
      have eo : ∀ τ : Strategy F, (ρ.strat τ).owned = τ.owned.rename ρ.g ρ.f := fun _ => rfl
      have f1 := Dict.filter_keys_rename (φ := (id : F → F)) (χ := (id : F → F)) ρ.g_inj σ.allocs ν.allocs (fun b => !b)
      have f2 := Dict.filter_keys_rename (φ := ρ.f) (χ := ρ.f) ρ.g_inj σ.owned ν.owned (fun b => !b)
      have f3 := Dict.filter_keys_rename (φ := ρ.f) (χ := ρ.f) ρ.g_inj ν.owned σ.owned (fun b => b)
      have f4 := Dict.filter_keys_rename (φ := ρ.f) (χ := ρ.f) ρ.g_inj ν.owned σ.owned (fun b => !b)
      beta_reduce at f1 f2 f3 f4
      rw [ea, ea, eo, eo, f1, f2, f3, f4, ho, ho, ho, ho, List.map_map]
      have e1 : (ord (σ.allocs.keys.filter (fun pid => !ν.allocs.contains pid))).map ((fun pid => (pid, (0 : F))) ∘ ρ.g) =
          ((ord (σ.allocs.keys.filter (fun pid => !ν.allocs.contains pid))).map (fun pid => (pid, (0 : F)))).map (fun e => (ρ.g e.1, e.2)) := by
        rw [List.map_map]; rfl
      rw [e1]
      refine Rel.bind (setDelegations_alike aid _ h) ?_
      intro s₁ s₁' _ _ h₁
      refine Rel.bind (setDelegations_alike aid ν.allocs h₁) ?_
      intro s₂ s₂' _ _ h₂
      refine Rel.bind (iterM_alike (fun t t' pid ht => closePool_alike pid ht) _ h₂) ?_
      intro s₃ s₃' _ _ h₃
      refine Rel.bind (iterM_alike (fun t t' pid ht => updatePool_alike aid pid ht) _ h₃) ?_
      intro s₄ s₄' _ _ h₄
      refine Rel.bind (Rel.of_map (h₄.getAgent aid)) ?_
      rintro me₄ _ _ _ rfl
      exact iterM_alike (fun t t' pid ht => openPool_alike aid pid ht) _ (h₄.setAgent { me₄ with strategy := me₄.newStrategy, newStrategy := none })

theorem advance_alike {ord ord' : List Nat → List Nat} (ho : ∀ l, ord' (l.map ρ.g) = (ord l).map ρ.g) {s s' : State F} (h : Renamed ρ s s')
    (aid : Nat) : Rel (Renamed ρ) (advance ord s aid) (advance ord' s' aid) := by
  unfold advance
  refine Rel.bind (Rel.of_map (h.getAgent aid)) ?_
  rintro me _ _ _ rfl
  have hn : (ρ.agent me).newStrategy = me.newStrategy.map ρ.strat := rfl
  rw [hn]
  cases me.newStrategy with
  | none => exact h
  | some ν =>
    simp only [Option.map_some]
    refine Rel.bind (executeStrategy_alike ho h aid) ?_
    intro s₁ s₁' _ _ h₁
    exact h₁.withIdle false

theorem agentStep_alike {ord ord' : List Nat → List Nat} (ho : ∀ l, ord' (l.map ρ.g) = (ord l).map ρ.g) {s s' : State F} (h : Renamed ρ s s')
    (aid : Nat) : Rel (Renamed ρ) (agentStep ord s aid) (agentStep ord' s' aid) := by
  unfold agentStep
  refine Rel.bind (updateStrategy_alike ho h aid) ?_
  intro s₁ s₁' _ _ h₁
  rw [h₁.simultaneous]
  split
  · exact h₁
  · exact advance_alike ho h₁ aid

/-! ### Phases and events -/

theorem unrank_alike {s s' : State F} (r : Ref) (h : Renamed ρ s s') : Rel (Renamed ρ) (unrank s r) (unrank s' (ρ.f r)) := by
  unfold unrank
  refine Rel.bind (Rel.of_map (h.removeRank r)) ?_
  rintro l _ _ _ rfl
  refine Rel.bind (Rel.of_map (h.removeRankM r)) ?_
  rintro lm _ _ _ rfl
  exact (h.withRank l).withRankM lm

theorem rerank_alike {s s' : State F} (r : Ref) (h : Renamed ρ s s') : Rel (Renamed ρ) (rerank s r) (rerank s' (ρ.f r)) := by
  unfold rerank
  have e : ((s'.heap (ρ.f r)).setProfit s'.rs).setDesirability = ρ.pool (((s.heap r).setProfit s.rs).setDesirability) := by rw [h.heap, h.rs]; rfl
  have h₁ := h.setPool r (((s.heap r).setProfit s.rs).setDesirability)
  have e2 : s'.rank.add (poolKey (ρ.pool (((s.heap r).setProfit s.rs).setDesirability))) (some (ρ.f r)) =
      ρ.rank (s.rank.add (poolKey (((s.heap r).setProfit s.rs).setDesirability)) (some r)) := by
    rw [h.rank, ρ.poolKey_pool, ρ.add_rank]
  have e3 : s'.rankM.add (poolKeyM s'.rs (ρ.pool (((s.heap r).setProfit s.rs).setDesirability))) (some (ρ.f r)) =
      ρ.rankM (s.rankM.add (poolKeyM s.rs (((s.heap r).setProfit s.rs).setDesirability)) (some r)) := by
    rw [h.rankM, h.rs, ρ.poolKeyM_pool, ρ.add_rankM]
  rw [e]
  have h₂ := (h₁.withRank (s.rank.add (poolKey (((s.heap r).setProfit s.rs).setDesirability)) (some r))).withRankM
    (s.rankM.add (poolKeyM s.rs (((s.heap r).setProfit s.rs).setDesirability)) (some r))
  rw [← e2, ← e3] at h₂
  exact h₂

theorem applyPhase_alike {s s' : State F} (p : PhaseParams F) (h : Renamed ρ s s') : Rel (Renamed ρ) (applyPhase s p) (applyPhase s' p) := by
  unfold applyPhase
  have key : ∀ rs : RS F, Renamed ρ { s with rs := rs, relThr := p.relThr.getD s.relThr, absThr := p.absThr.getD s.absThr, extraFrac := p.extraFrac.getD s.extraFrac }
      { s' with rs := rs, relThr := p.relThr.getD s'.relThr, absThr := p.absThr.getD s'.absThr, extraFrac := p.extraFrac.getD s'.extraFrac } := fun rs =>
    { h with rs := rfl, relThr := congrArg (p.relThr.getD ·) h.relThr, absThr := congrArg (p.absThr.getD ·) h.absThr, extraFrac := congrArg (p.extraFrac.getD ·) h.extraFrac }
  cases p.k with
  | none =>
    have e : (Except.ok s'.rs : Py (RS F)) = Except.ok s.rs := by rw [h.rs]
    refine Rel.bind (Rel.of_eq' e) ?_
    rintro rs _ _ _ rfl
    exact key _
  | some k =>
    have e : s'.rs.setK k = s.rs.setK k := by rw [h.rs]
    refine Rel.bind (Rel.of_eq' e) ?_
    rintro rs _ _ _ rfl
    exact key _

theorem changePhase_alike {s s' : State F} (p : PhaseParams F) (h : Renamed ρ s s') : Rel (Renamed ρ) (changePhase s p) (changePhase s' p) := by
  unfold changePhase
  have hv : ∀ t t' : State F, Renamed ρ t t' → t'.pools.vals = t.pools.vals.map ρ.f := by
    intro t t' ht
    rw [ht.pools]; exact Dict.vals_rename _
  rw [hv s s' h]
  refine Rel.bind (iterM_alike (fun t t' r ht => unrank_alike r ht) _ h) ?_
  intro s₁ s₁' _ _ h₁
  refine Rel.bind (applyPhase_alike p h₁) ?_
  intro s₂ s₂' _ _ h₂
  rw [hv s₂ s₂' h₂]
  exact iterM_alike (fun t t' r ht => rerank_alike r ht) _ h₂

/-- the same event for the same agent; sets of ids are iterated in corresponding orders -/
def Event.Renamed (ρ : Naming) : Event F → Event F → Prop
  | .step a ord, .step a' ord' => a' = a ∧ ∀ l, ord' (l.map ρ.g) = (ord l).map ρ.g
  | .advance a ord, .advance a' ord' => a' = a ∧ ∀ l, ord' (l.map ρ.g) = (ord l).map ρ.g
  | .phase p, .phase p' => p' = p
  | .roundEnd, .roundEnd => True
  | _, _ => False

theorem exec_alike {s s' : State F} {ev ev' : Event F} (h : Renamed ρ s s') (he : Event.Renamed ρ ev ev') : Rel (Renamed ρ) (exec s ev) (exec s' ev') := by
  cases ev <;> cases ev' <;> try exact he.elim
  · obtain ⟨rfl, ho⟩ := he
    exact agentStep_alike ho h _
  · obtain ⟨rfl, ho⟩ := he
    exact advance_alike ho h _
  · cases he
    exact changePhase_alike _ h
  · exact h.withIdle true

theorem run_alike : ∀ {es es' : List (Event F)} {s s' : State F}, Renamed ρ s s' → List.Forall₂ (Event.Renamed ρ) es es' →
    Rel (Renamed ρ) (iterM exec s es) (iterM exec s' es')
  | [], _, _, _, h, he => by cases he; exact h
  | e :: t, _, _, _, h, he => by
    cases he with
    | cons h1 h2 =>
      unfold iterM
      exact Rel.bind (exec_alike h h1) (fun _ _ _ _ h₁ => run_alike h₁ h2)

end Executing

end RSE
