import Mathlib.Data.Multiset.Basic
import Mathlib.Data.Multiset.AddSub
import Mathlib.Data.Multiset.UnionInter
import Mathlib.Algebra.Order.Group.Multiset
import Mathlib.Algebra.BigOperators.Group.Multiset.Basic

/-!
# Programs that allocate and free memory

The C library allocates with `my_malloc`, `my_calloc` (src/utils.c:38-53), `dftw_malloc` (src/utils.h) and the allocators of
GSL, and releases with `free`, `dftw_free` and their GSL counterparts. Here a block of memory is a number that has never been
used before; contents and sizes of blocks, and the difference between the allocators, are left out, and allocation never fails
(`my_malloc` reports an error then). What is kept is which blocks are allocated, which pointers have been set, and the order of
operations. Freeing or following a pointer that is not set or whose block is not allocated (any more) is undefined behaviour.
-/

namespace NaMaster

/-- A pointer: a variable or structure member that has not been assigned, `NULL`, or the address of a block. -/
inductive Ptr where
  | uninit
  | null
  | to (b : ℕ)
  deriving DecidableEq, Inhabited

/-- The allocated blocks, and the next block that `malloc` will hand out. -/
structure Heap where
  next : ℕ
  live : Multiset ℕ

/-- What can happen when C code runs: undefined behaviour, an error reported by `report_error` (src/utils.c:15-36), which jumps
back to the wrapper and becomes a python exception, or the end of the code. -/
inductive Run (α : Type) where
  | bad
  | raised (h : Heap)
  | done (a : α) (h : Heap)

/-- What happens when further code follows. -/
def Run.seq {α β : Type} (r : Run α) (f : α → Heap → Run β) : Run β := match r with
  | .bad => .bad
  | .raised h => .raised h
  | .done a h => f a h

/-- Code that uses the heap. -/
def Mem (α : Type) : Type := Heap → Run α

instance : Monad Mem where
  pure a := fun h => .done a h
  bind m f := fun h => (m h).seq f

/-- `malloc` and its relatives. -/
def malloc : Mem ℕ := fun h => .done h.next ⟨h.next + 1, h.next ::ₘ h.live⟩

/-- `free` and its relatives: nothing happens for `NULL`. -/
def free (p : Ptr) : Mem Unit := fun h => match p with
  | .uninit => .bad
  | .null => .done () h
  | .to b => if b ∈ h.live then .done () ⟨h.next, h.live.erase b⟩ else .bad

/-- Access to what a pointer points to. -/
def use (p : Ptr) : Mem Unit := fun h => match p with
  | .to b => if b ∈ h.live then .done () h else .bad
  | _ => .bad

/-- `report_error` with a non-zero level. -/
def raiseErr {α : Type} : Mem α := fun h => .raised h

/-- `for(ii=0;ii<n;ii++)` with a body that gives a value for every `ii`. -/
def loopC {α : Type} : ℕ → (ℕ → Mem α) → Mem (List α)
  | 0, _ => pure []
  | n + 1, f => do
    let l ← loopC n f
    let a ← f n
    pure (l ++ [a])

/-- `for(ii=0;ii<n;ii++)` with a body executed for its effect. -/
def loopU : ℕ → (ℕ → Mem Unit) → Mem Unit
  | 0, _ => pure ()
  | n + 1, f => do
    loopU n f
    f n

/-- An array of pointers, or of pointers to arrays: the pointer to it and the elements that have been set. -/
structure PArr (α : Type) where
  ptr : Ptr
  elems : List α
  deriving Inhabited

/-- `a[i]`: the array must be there; an element that has not been set, or that lies outside the array, is an uninitialised
pointer (or an array with such a pointer). -/
def PArr.get {α : Type} [Inhabited α] (a : PArr α) (i : ℕ) : Mem α := do
  use a.ptr
  pure (a.elems.getD i default)

/-! ## Reasoning about such programs -/

/-- Heaps that can occur: no block was handed out twice, and blocks still to be handed out are not allocated. -/
structure Heap.WF (h : Heap) : Prop where
  lt : ∀ b ∈ h.live, b < h.next
  nodup : h.live.Nodup

/-- Started with blocks `P` allocated, besides any others, the code has no undefined behaviour. If it ends with value `a`, it
has replaced `P` by blocks for which `Q a` holds, and if it raises, by blocks for which `E` holds; the others are untouched. -/
def Triple {α : Type} (P : Multiset ℕ) (m : Mem α) (Q : α → Multiset ℕ → Prop) (E : Multiset ℕ → Prop) : Prop :=
  ∀ h : Heap, h.WF → ∀ R, h.live = P + R →
    (∃ a h' X, m h = .done a h' ∧ Q a X ∧ h'.live = X + R ∧ h'.WF) ∨
    (∃ h' X, m h = .raised h' ∧ E X ∧ h'.live = X + R ∧ h'.WF)

/-- `P` consists of `X` and `P'`. -/
class Take (X P : Multiset ℕ) (P' : outParam (Multiset ℕ)) : Prop where
  eq : P = X + P'

instance (priority := high) takeHead (X R : Multiset ℕ) : Take X (X + R) R := ⟨rfl⟩
instance takeTail (X Y R R' : Multiset ℕ) [h : Take X R R'] : Take X (Y + R) (Y + R') :=
  ⟨by rw [h.eq]; exact add_left_comm _ _ _⟩

instance (priority := high) takeSelf (X : Multiset ℕ) : Take X X 0 := ⟨by rw [add_zero]⟩
instance (priority := low) takeAssoc (X Y Z R R' : Multiset ℕ) [h : Take X (Y + (Z + R)) R'] : Take X ((Y + Z) + R) R' :=
  ⟨by rw [add_assoc]; exact h.eq⟩

section rules
variable {α β : Type} {P P' X : Multiset ℕ} {Q : β → Multiset ℕ → Prop} {E : Multiset ℕ → Prop}

theorem triple_pure {a : β} (h : Q a P) : Triple P (pure a) Q E := fun hp hw _ hl =>
  Or.inl ⟨a, hp, P, rfl, h, hl, hw⟩

theorem triple_raise (h : E P) : Triple P (raiseErr (α := β)) Q E := fun hp hw _ hl =>
  Or.inr ⟨hp, P, rfl, h, hl, hw⟩

theorem triple_bind {m : Mem α} {f : α → Mem β} {Q1 : α → Multiset ℕ → Prop} (h1 : Triple P m Q1 E)
    (h2 : ∀ a Y, Q1 a Y → Triple Y (f a) Q E) : Triple P (m >>= f) Q E := by
  intro h hw R hl
  rcases h1 h hw R hl with ⟨a, h', Y, e, q, hl', hw'⟩ | ⟨h', Y, e, q, hl', hw'⟩
  · have := h2 a Y q h' hw' R hl'
    have e2 : (m >>= f) h = f a h' := by
      change (m h).seq f = _
      rw [e]; rfl
    rw [e2]; exact this
  · have e2 : (m >>= f) h = .raised h' := by
      change (m h).seq f = _
      rw [e]; rfl
    exact Or.inr ⟨h', Y, e2, q, hl', hw'⟩

theorem triple_congr {m : Mem β} (h : P = P') (t : Triple P' m Q E) : Triple P m Q E := h ▸ t

theorem triple_mono {m : Mem β} {Q' : β → Multiset ℕ → Prop} {E' : Multiset ℕ → Prop} (t : Triple P m Q' E')
    (hQ : ∀ a Y, Q' a Y → Q a Y) (hE : ∀ Y, E' Y → E Y) : Triple P m Q E := by
  intro h hw R hl
  rcases t h hw R hl with ⟨a, h', Y, e, q, r⟩ | ⟨h', Y, e, q, r⟩
  · exact Or.inl ⟨a, h', Y, e, hQ _ _ q, r⟩
  · exact Or.inr ⟨h', Y, e, hE _ q, r⟩

theorem triple_frame {m : Mem β} {Q' : β → Multiset ℕ → Prop} {E' : Multiset ℕ → Prop} (F : Multiset ℕ)
    (t : Triple P m Q' E') :
    Triple (P + F) m (fun a Y => ∃ Z, Q' a Z ∧ Y = Z + F) (fun Y => ∃ Z, E' Z ∧ Y = Z + F) := by
  intro h hw R hl
  rcases t h hw (F + R) (by rw [hl, add_assoc]) with ⟨a, h', Y, e, q, r, w⟩ | ⟨h', Y, e, q, r, w⟩
  · exact Or.inl ⟨a, h', Y + F, e, ⟨Y, q, rfl⟩, by rw [r, add_assoc], w⟩
  · exact Or.inr ⟨h', Y + F, e, ⟨Y, q, rfl⟩, by rw [r, add_assoc], w⟩

/-- Calling a function that does not raise. -/
theorem triple_call {m : Mem α} {f : α → Mem β} {Q1 : α → Multiset ℕ → Prop} [t : Take X P P']
    (h1 : Triple X m Q1 (fun _ => False)) (h2 : ∀ a Y, Q1 a Y → Triple (Y + P') (f a) Q E) : Triple P (m >>= f) Q E := by
  refine triple_congr t.eq (triple_bind (triple_mono (triple_frame P' h1) (fun _ _ h => h) ?_) ?_)
  · rintro Y ⟨Z, hz, -⟩; exact hz.elim
  · rintro a Y ⟨Z, hz, rfl⟩; exact h2 a Z hz

/-- Calling a function that may raise. -/
theorem triple_callE {m : Mem α} {f : α → Mem β} {Q1 : α → Multiset ℕ → Prop} {E1 : Multiset ℕ → Prop} [t : Take X P P']
    (h1 : Triple X m Q1 E1) (hE : ∀ Y, E1 Y → E (Y + P')) (h2 : ∀ a Y, Q1 a Y → Triple (Y + P') (f a) Q E) :
    Triple P (m >>= f) Q E := by
  refine triple_congr t.eq (triple_bind (triple_mono (triple_frame P' h1) (fun _ _ h => h) ?_) ?_)
  · rintro Y ⟨Z, hz, rfl⟩; exact hE Z hz
  · rintro a Y ⟨Z, hz, rfl⟩; exact h2 a Z hz

/-- Calling a function that needs no blocks and does not raise. -/
theorem triple_new {m : Mem α} {f : α → Mem β} {Q1 : α → Multiset ℕ → Prop}
    (h1 : Triple 0 m Q1 (fun _ => False)) (h2 : ∀ a Y, Q1 a Y → Triple (Y + P) (f a) Q E) : Triple P (m >>= f) Q E := by
  have : Take 0 P P := ⟨by rw [zero_add]⟩
  exact triple_call (X := 0) h1 h2

theorem triple_malloc0 : Triple 0 malloc (fun b Y => Y = {b}) (fun _ => False) := by
  intro h hw R hl
  refine Or.inl ⟨h.next, _, {h.next}, rfl, rfl, ?_, ?_, ?_⟩
  · rw [hl, zero_add]; rfl
  · intro b hb
    rcases Multiset.mem_cons.1 hb with rfl | hb
    · exact Nat.lt_succ_self _
    · exact Nat.lt_succ_of_lt (hw.lt b hb)
  · exact Multiset.nodup_cons.2 ⟨fun hm => lt_irrefl _ (hw.lt _ hm), hw.nodup⟩

theorem triple_malloc {f : ℕ → Mem β} (h : ∀ b, Triple ({b} + P) (f b) Q E) : Triple P (malloc >>= f) Q E :=
  triple_new triple_malloc0 (by rintro b Y rfl; exact h b)

theorem triple_free0 (b : ℕ) : Triple {b} (free (.to b)) (fun _ Y => Y = 0) (fun _ => False) := by
  intro h hw R hl
  have hb : b ∈ h.live := by rw [hl]; simp
  refine Or.inl ⟨(), ⟨h.next, h.live.erase b⟩, 0, ?_, rfl, ?_, ?_, ?_⟩
  · simp only [free, if_pos hb]
  · rw [hl]; simp
  · intro c hc; exact hw.lt c (Multiset.mem_of_mem_erase hc)
  · exact hw.nodup.erase _

theorem triple_free {b : ℕ} {f : Unit → Mem β} [t : Take {b} P P'] (h : Triple P' (f ()) Q E) :
    Triple P (free (.to b) >>= f) Q E :=
  triple_call (X := {b}) (triple_free0 b) (by rintro ⟨⟩ Y rfl; rw [zero_add]; exact h)

theorem triple_free_null {f : Unit → Mem β} (h : Triple P (f ()) Q E) : Triple P (free .null >>= f) Q E := h

theorem triple_use0 (b : ℕ) : Triple {b} (use (.to b)) (fun _ Y => Y = {b}) (fun _ => False) := by
  intro h hw R hl
  have hb : b ∈ h.live := by rw [hl]; simp
  exact Or.inl ⟨(), h, {b}, by simp only [use, if_pos hb], rfl, hl, hw⟩

theorem triple_use {b : ℕ} {f : Unit → Mem β} [t : Take {b} P P'] (h : Triple P (f ()) Q E) :
    Triple P (use (.to b) >>= f) Q E :=
  triple_call (X := {b}) (triple_use0 b) (by rintro ⟨⟩ Y rfl; rw [← t.eq]; exact h)

theorem triple_get [Inhabited α] {b i : ℕ} {l : List α} {f : α → Mem β} [t : Take {b} P P'] (hi : i < l.length)
    (h : Triple P (f l[i]) Q E) : Triple P (PArr.get ⟨.to b, l⟩ i >>= f) Q E := by
  have : (PArr.get (⟨.to b, l⟩ : PArr α) i >>= f) = (use (.to b) >>= fun _ => f (l.getD i default)) := by
    funext h
    unfold PArr.get
    dsimp only [bind, pure]
    cases use (Ptr.to b) h <;> rfl
  rw [this]
  refine triple_use ?_
  rw [List.getD_eq_getElem?_getD, List.getElem?_eq_getElem hi, Option.getD_some]
  exact h

theorem triple_last {m : Mem β} (h : Triple P (m >>= pure) Q E) : Triple P m Q E := by
  have : (m >>= pure) = m := by
    funext h
    change (m h).seq (fun a => (pure a : Mem β)) = _
    cases m h <;> rfl
  rwa [this] at h

theorem mem_assoc {γ δ : Type} (m : Mem γ) (f : γ → Mem δ) (g : δ → Mem β) :
    ((m >>= f) >>= g) = (m >>= fun a => f a >>= g) := by
  funext h
  change ((m h).seq f).seq g = (m h).seq fun a => f a >>= g
  cases m h <;> rfl

theorem mem_pure_bind {γ : Type} (a : γ) (f : γ → Mem β) : (pure a >>= f) = f a := rfl

/-- Loops that allocate. -/
theorem triple_loopC {f : ℕ → Mem α} {B : α → Multiset ℕ → Prop} (n : ℕ)
    (h : ∀ i, i < n → Triple 0 (f i) B (fun _ => False)) :
    Triple 0 (loopC n f) (fun l Y => l.length = n ∧ ∃ Ys, List.Forall₂ B l Ys ∧ Y = Ys.sum) (fun _ => False) := by
  induction n with
  | zero => exact triple_pure ⟨rfl, [], List.Forall₂.nil, rfl⟩
  | succ n ih =>
    refine triple_bind (ih fun i hi => h i (Nat.lt_succ_of_lt hi)) ?_
    rintro l Y ⟨hl, Ys, hY, rfl⟩
    refine triple_new (h n (Nat.lt_succ_self n)) ?_
    intro a Z hZ
    refine triple_pure ⟨by simp [hl], Ys ++ [Z], ?_, ?_⟩
    · exact List.rel_append hY (List.Forall₂.cons hZ List.Forall₂.nil)
    · simp [add_comm]

/-- Loops that free: iteration `i` frees `A i`, and uses `C`, which stays. -/
theorem triple_loopU {f : ℕ → Mem Unit} {C : Multiset ℕ} {A : ℕ → Multiset ℕ} (n : ℕ)
    (h : ∀ i, i < n → Triple (A i + C) (f i) (fun _ Y => Y = C) (fun _ => False)) :
    Triple (((List.range n).map A).sum + C) (loopU n f) (fun _ Y => Y = C) (fun _ => False) := by
  induction n with
  | zero => exact triple_pure (by simp)
  | succ n ih =>
    have e : ((List.range (n + 1)).map A).sum + C = (((List.range n).map A).sum + C) + A n := by
      rw [List.range_succ]; simp [add_comm, add_left_comm]
    refine triple_congr e (triple_bind (triple_mono (triple_frame (A n) (ih fun i hi => h i (Nat.lt_succ_of_lt hi)))
      (fun _ _ h => h) ?_) ?_)
    · rintro Y ⟨Z, hz, -⟩; exact hz.elim
    · rintro ⟨⟩ Y ⟨Z, rfl, rfl⟩
      rw [add_comm]
      exact h n (Nat.lt_succ_self n)

/-- Loops in which iteration `i` works on element `i` of an array and frees it. -/
theorem triple_loopElems {l : List α} {B : α → Multiset ℕ → Prop} {Xs : List (Multiset ℕ)} {C : Multiset ℕ}
    {f : ℕ → Mem Unit} (hF : List.Forall₂ B l Xs)
    (h : ∀ i (hi : i < l.length) Y, B l[i] Y → Triple (Y + C) (f i) (fun _ Z => Z = C) (fun _ => False)) :
    Triple (Xs.sum + C) (loopU l.length f) (fun _ Z => Z = C) (fun _ => False) := by
  have e : Xs.sum = ((List.range l.length).map (fun i => Xs.getD i 0)).sum := by
    congr 1
    refine List.ext_getElem (by simp [hF.length_eq]) fun i h1 h2 => ?_
    simp [List.getD_eq_getElem?_getD, h1]
  rw [e]
  refine triple_loopU _ fun i hi => h i hi _ ?_
  have hi' : i < Xs.length := hF.length_eq ▸ hi
  rw [List.getD_eq_getElem?_getD, List.getElem?_eq_getElem hi', Option.getD_some]
  exact hF.get hi hi'

end rules

/-! ## Blocks that belong to arrays of pointers -/

/-- A pointer to one block. -/
def PtrAt (p : Ptr) (X : Multiset ℕ) : Prop := ∃ b, p = .to b ∧ X = {b}

/-- An array of `n` elements whose blocks are described by `B`. -/
def ArrAt {α : Type} (B : α → Multiset ℕ → Prop) (n : ℕ) (a : PArr α) (X : Multiset ℕ) : Prop :=
  ∃ o l Xs, a = ⟨.to o, l⟩ ∧ l.length = n ∧ List.Forall₂ B l Xs ∧ X = {o} + Xs.sum

/-- `malloc` for the array of pointers, then a loop that sets all of them. -/
def allocArr {α : Type} (n : ℕ) (f : ℕ → Mem α) : Mem (PArr α) := do
  let o ← malloc
  let l ← loopC n f
  pure ⟨.to o, l⟩

/-- `malloc` as a pointer. -/
def mallocP : Mem Ptr := do
  let b ← malloc
  pure (.to b)

theorem mallocP_spec : Triple 0 mallocP PtrAt (fun _ => False) :=
  triple_malloc fun b => triple_pure ⟨b, rfl, by simp⟩

theorem allocArr_spec {α : Type} {B : α → Multiset ℕ → Prop} (n : ℕ) {f : ℕ → Mem α}
    (h : ∀ i, i < n → Triple 0 (f i) B (fun _ => False)) :
    Triple 0 (allocArr n f) (ArrAt B n) (fun _ => False) := by
  refine triple_malloc fun o => triple_new (triple_loopC n h) ?_
  rintro l Y ⟨hl, Ys, hY, rfl⟩
  exact triple_pure ⟨o, l, Ys, rfl, hl, hY, by simp [add_comm]⟩

end NaMaster
