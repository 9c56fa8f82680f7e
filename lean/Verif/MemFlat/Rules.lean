import Verif.MemFlat.Model
import Verif.Mem.Props

/-!
# Rules for reasoning about the functions of `MemFlat/Model.lean`
-/

namespace NaMaster

namespace MemF

open Mem

/-! ## Reading -/

/-- The pointer leads to one of the blocks. -/
def Has (P : Multiset ℕ) (p : Ptr) : Prop := ∃ b, p = .to b ∧ b ∈ P

/-- An array of `n` elements with property `C`. -/
def HasArr {α : Type} [Inhabited α] (P : Multiset ℕ) (C : α → Prop) (n : ℕ) (a : PArr α) : Prop :=
  Has P a.ptr ∧ ∀ i < n, C (a.elems.getD i default)

/-- An array of `n` pointers to blocks. -/
abbrev Arr (P : Multiset ℕ) (n : ℕ) (a : PArr Ptr) : Prop := HasArr P (Has P) n a

/-- An array of `n` pointers to rows of python arrays. -/
abbrev PyArr (P : Multiset ℕ) (n : ℕ) (a : PArr Bool) : Prop := HasArr P (· = true) n a

section
variable {α β : Type} {P P' X : Multiset ℕ} {Q : β → Multiset ℕ → Prop} {E : Multiset ℕ → Prop}

theorem Has.mono {p : Ptr} (h : Has P p) (hP : P ≤ P') : Has P' p := by
  obtain ⟨b, rfl, hb⟩ := h
  exact ⟨b, rfl, Multiset.mem_of_le hP hb⟩

theorem Has.use {p : Ptr} (h : Has P p) : Reads P (use p) := by
  obtain ⟨b, rfl, hb⟩ := h
  exact reads_use b hb

theorem HasArr.imp [Inhabited α] {C C' : α → Prop} {n : ℕ} {a : PArr α} (h : HasArr P C n a) (hP : P ≤ P')
    (hC : ∀ x, C x → C' x) : HasArr P' C' n a := ⟨h.1.mono hP, fun i hi => hC _ (h.2 i hi)⟩

theorem arr_mono {n : ℕ} {a : PArr Ptr} (h : Arr P n a) (hP : P ≤ P') : Arr P' n a := h.imp hP fun _ hx => hx.mono hP

theorem pyArr_mono {n : ℕ} {a : PArr Bool} (h : PyArr P n a) (hP : P ≤ P') : PyArr P' n a := h.imp hP fun _ hx => hx

theorem HasArr.get [Inhabited α] {C : α → Prop} {n i : ℕ} {a : PArr α} {f : α → Mem β} (h : HasArr P C n a) (hi : i < n)
    (h2 : ∀ x, C x → Triple P (f x) Q E) : Triple P (a.get i >>= f) Q E := by
  unfold PArr.get
  rw [mem_assoc]
  exact Reads.bind h.1.use (h2 _ (h.2 i hi))

theorem PtrAt.has {p : Ptr} (h : PtrAt p X) (hX : X ≤ P) : Has P p := by
  obtain ⟨b, rfl, rfl⟩ := h
  exact ⟨b, rfl, Multiset.singleton_le.1 hX⟩

theorem forall2_le {B : α → Multiset ℕ → Prop} {l : List α} {Xs : List (Multiset ℕ)} (h : List.Forall₂ B l Xs) {i : ℕ}
    (hi : i < l.length) : ∃ Y, B l[i] Y ∧ Y ≤ Xs.sum := by
  induction h generalizing i with
  | nil => simp at hi
  | @cons a Y l Ys hb hF ih =>
    cases i with
    | zero => exact ⟨Y, hb, by rw [List.sum_cons]; exact Multiset.le_add_right _ _⟩
    | succ i =>
      obtain ⟨Z, hZ, hle⟩ := ih (i := i) (by simpa using hi)
      exact ⟨Z, hZ, by rw [List.sum_cons]; exact hle.trans (Multiset.le_add_left _ _)⟩

theorem ArrAt.has [Inhabited α] {B : α → Multiset ℕ → Prop} {C : α → Prop} {n : ℕ} {a : PArr α} (h : ArrAt B n a X) (hX : X ≤ P)
    (hB : ∀ x Y, B x Y → Y ≤ P → C x) : HasArr P C n a := by
  obtain ⟨o, l, Xs, rfl, hl, hF, rfl⟩ := h
  refine ⟨⟨o, rfl, Multiset.mem_of_le hX (by simp)⟩, fun i hi => ?_⟩
  obtain ⟨Y, hY, hle⟩ := forall2_le hF (hl ▸ hi)
  have e : l.getD i default = l[i]'(hl ▸ hi) := by
    rw [List.getD_eq_getElem?_getD, List.getElem?_eq_getElem (hl ▸ hi), Option.getD_some]
  dsimp only
  rw [e]
  exact hB _ Y hY (hle.trans ((Multiset.le_add_left _ _).trans hX))

theorem arrAt_arr {n : ℕ} {a : PArr Ptr} (h : ArrAt PtrAt n a X) (hX : X ≤ P) : Arr P n a :=
  ArrAt.has h hX fun _ _ => PtrAt.has

theorem usePy_reads {r : Bool} (h : r = true) : Reads P (usePy r) := by
  subst h
  exact triple_pure rfl

theorem row_reads {n i : ℕ} {a : PArr Ptr} (h : Arr P n a) (hi : i < n) : Reads P (row a i) := h.get hi fun _ hx => hx.use

theorem pyRow_reads {n i : ℕ} {a : PArr Bool} (h : PyArr P n a) (hi : i < n) : Reads P (pyRow a i) :=
  h.get hi fun _ hx => usePy_reads hx

theorem useArr_reads {n : ℕ} {a : PArr Ptr} (h : Arr P n a) : Reads P (useArr n a) := Reads.loop fun _ hi => row_reads h hi

theorem usePyArr_reads {n : ℕ} {a : PArr Bool} (h : PyArr P n a) : Reads P (usePyArr n a) := Reads.loop fun _ hi => pyRow_reads h hi

/-- Access to any of `n` rows is fine, also when there are more blocks. -/
def OutOk (P : Multiset ℕ) (n : ℕ) (out : ℕ → Mem Unit) : Prop := ∀ P', P ≤ P' → ∀ i < n, Reads P' (out i)

theorem OutOk.mono {n : ℕ} {out : ℕ → Mem Unit} (h : OutOk P n out) (hP : P ≤ P') : OutOk P' n out :=
  fun P'' hle => h P'' (hP.trans hle)

theorem pyRow_ok {n : ℕ} {a : PArr Bool} (h : PyArr P n a) : OutOk P n (pyRow a) := fun _ hle _ hi =>
  pyRow_reads (pyArr_mono h hle) hi

theorem row_ok {n : ℕ} {a : PArr Ptr} (h : Arr P n a) : OutOk P n (row a) := fun _ hle _ hi => row_reads (arr_mono h hle) hi

/-! ## Releasing -/

/-- The code releases exactly these blocks. -/
def Frees (X : Multiset ℕ) (m : Mem Unit) : Prop := Triple X m (fun _ Y => Y = 0) (fun _ => False)

theorem Frees.bind {m : Mem Unit} {f : Unit → Mem β} (h : Frees X m) [t : Take X P P'] (h2 : Triple P' (f ()) Q E) :
    Triple P (m >>= f) Q E :=
  triple_call (X := X) h (by rintro ⟨⟩ Y rfl; rw [zero_add]; exact h2)

theorem PtrAt.frees {p : Ptr} (h : PtrAt p X) : Frees X (free p) := by
  obtain ⟨b, rfl, rfl⟩ := h
  exact triple_free0 b

theorem freeEach_frees [Inhabited α] {B : α → Multiset ℕ → Prop} {n : ℕ} {a : PArr α} {fr : α → Mem Unit} (h : ArrAt B n a X)
    (hf : ∀ x Y, B x Y → Frees Y (fr x)) : Frees X (freeEach n a fr) := by
  obtain ⟨o, l, Xs, rfl, rfl, hF, rfl⟩ := h
  unfold freeEach
  have key : Triple (Xs.sum + {o}) (loopU l.length fun i => do
      let x ← PArr.get ⟨.to o, l⟩ i
      fr x) (fun _ Z => Z = {o}) (fun _ => False) := by
    refine triple_loopElems hF fun i hi Y hY => triple_get hi ?_
    refine triple_mono (triple_frame {o} (hf _ Y hY)) ?_ ?_
    · rintro ⟨⟩ V ⟨Z, rfl, rfl⟩; rw [zero_add]
    · rintro V ⟨Z, hz, -⟩; exact hz
  refine triple_bind (triple_congr (add_comm _ _) key) ?_
  rintro ⟨⟩ Y rfl
  exact triple_free0 o

theorem freeArr_frees {n : ℕ} {a : PArr Ptr} (h : ArrAt PtrAt n a X) : Frees X (freeEach n a free) :=
  freeEach_frees h fun _ _ => PtrAt.frees

theorem allocPtrs_spec (n : ℕ) : Triple 0 (allocArr n fun _ => mallocP) (ArrAt PtrAt n) (fun _ => False) :=
  allocArr_spec n fun _ _ => mallocP_spec

theorem arrAt_card {B : α → Multiset ℕ → Prop} {n k : ℕ} {a : PArr α} (h : ArrAt B n a X) (hB : ∀ x Y, B x Y → Y.card = k) :
    X.card = 1 + n * k := by
  obtain ⟨o, l, Xs, rfl, rfl, hF, rfl⟩ := h
  rw [Multiset.card_add, Multiset.card_singleton]
  congr 1
  clear o
  induction hF with
  | nil => simp
  | cons hb _ ih =>
    rw [List.sum_cons, Multiset.card_add, hB _ _ hb, ih, List.length_cons]
    ring

theorem ptrAt_card {p : Ptr} (h : PtrAt p X) : X.card = 1 := by
  obtain ⟨b, -, rfl⟩ := h
  exact Multiset.card_singleton b

theorem ptrs_card {n : ℕ} {a : PArr Ptr} (h : ArrAt PtrAt n a X) : X.card = 1 + n := by
  rw [arrAt_card h fun _ _ => ptrAt_card, mul_one]

/-! ## Temporary arrays -/

theorem withEach_reads [Inhabited α] {B : α → Multiset ℕ → Prop} {n : ℕ} {al : Mem α} {fr : α → Mem Unit} {m : PArr α → Mem Unit}
    (ha : Triple 0 al B (fun _ => False)) (hf : ∀ x Y, B x Y → Frees Y (fr x))
    (hm : ∀ a Z, ArrAt B n a Z → Reads (Z + P) (m a)) : Reads P (withEach n al fr m) := by
  unfold withEach
  refine triple_new (allocArr_spec (B := B) n fun _ _ => ha) ?_
  intro a Z hZ
  refine Reads.bind (hm a Z hZ) ?_
  exact triple_last ((freeEach_frees hZ hf).bind (triple_pure rfl))

theorem withArr_reads {n : ℕ} {m : PArr Ptr → Mem Unit} (hm : ∀ P' a, P ≤ P' → Arr P' n a → Reads P' (m a)) :
    Reads P (withArr n m) :=
  withEach_reads mallocP_spec (fun _ _ => PtrAt.frees) fun a _ ha =>
    hm _ a (Multiset.le_add_left _ _) (arrAt_arr ha (Multiset.le_add_right _ _))

theorem pyArr_new {o n : ℕ} (h : o ∈ P) : PyArr P n ⟨.to o, List.replicate n true⟩ := by
  refine ⟨⟨o, rfl, h⟩, fun i hi => ?_⟩
  simp [List.getD_eq_getElem?_getD, hi]

theorem withPy_reads {n : ℕ} {m : PArr Bool → Mem Unit} (hm : ∀ P' a, P ≤ P' → PyArr P' n a → Reads P' (m a)) :
    Reads P (withPy n m) := by
  unfold withPy
  refine triple_mallocP fun o => Reads.bind (hm _ _ (Multiset.le_add_left _ _) (pyArr_new (by simp))) ?_
  exact triple_last (triple_free (triple_pure rfl))

/-! ## Code that may raise -/

/-- Without undefined behaviour, the code leaves the blocks as they are if `k` is `none`, and raises, with `k` blocks more,
otherwise. -/
def Ends (P : Multiset ℕ) (m : Mem Unit) (k : Option ℕ) : Prop :=
  Triple P m (fun _ Y => k = none ∧ Y = P) (fun Y => ∃ n Z, k = some n ∧ Multiset.card Z = n ∧ Y = Z + P)

theorem Reads.ends {m : Mem Unit} (h : Reads P m) : Ends P m none :=
  triple_mono h (fun _ _ h => ⟨rfl, h⟩) fun _ h => h.elim

theorem Reads.thenEnds {m : Mem Unit} {f : Unit → Mem Unit} {k : Option ℕ} (h : Reads P m) (h2 : Ends P (f ()) k) :
    Ends P (m >>= f) k := Reads.bind h h2

theorem ends_raise {f : Unit → Mem Unit} {c : Bool} {k : Option ℕ} (h : c = false → Ends P (f ()) k) :
    Ends P (whenC c raiseErr >>= f) (if c then some 0 else k) := by
  cases c
  · exact h rfl
  · exact triple_raise ⟨0, 0, rfl, rfl, (zero_add _).symm⟩

/-- A function that has allocated the blocks `L`, which are released at the end, but not if it raises. -/
theorem Ends.within {L : Multiset ℕ} {m : Mem Unit} {f : Unit → Mem Unit} {k : Option ℕ} {c : ℕ} (h : Ends (L + P) m k)
    (hc : Multiset.card L = c) (h2 : Triple (L + P) (f ()) (fun _ Y => Y = P) (fun _ => False)) :
    Triple (L + P) (m >>= f) (fun _ Y => k.map (· + c) = none ∧ Y = P)
      (fun Y => ∃ n Z, k.map (· + c) = some n ∧ Multiset.card Z = n ∧ Y = Z + P) := by
  refine triple_bind (triple_mono h (fun _ _ h => h) ?_) ?_
  · rintro Y ⟨n, Z, rfl, hZ, rfl⟩
    exact ⟨n + c, Z + L, rfl, by rw [Multiset.card_add, hZ, hc], (add_assoc _ _ _).symm⟩
  · rintro ⟨⟩ Y ⟨rfl, rfl⟩
    exact triple_mono h2 (fun _ _ h => ⟨rfl, h⟩) fun _ h => h.elim

theorem withPy_ends {n : ℕ} {m : PArr Bool → Mem Unit} {k : Option ℕ}
    (hm : ∀ P' a, P ≤ P' → PyArr P' n a → Ends P' (m a) k) : Ends P (withPy n m) (k.map (· + 1)) := by
  unfold withPy
  refine triple_mallocP fun o => Ends.within (hm _ _ (Multiset.le_add_left _ _) (pyArr_new (by simp))) rfl ?_
  exact triple_last (triple_free (triple_pure rfl))

end

end MemF

end NaMaster
