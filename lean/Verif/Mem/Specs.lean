import Verif.Mem.Model
import Mathlib.Tactic.Abel
import Mathlib.Tactic.Ring

/-!
# What the functions of `Mem/Model.lean` do to the allocated blocks
-/

namespace NaMaster

namespace Mem

section rules
variable {α β : Type} {P P' P'' X : Multiset ℕ} {Q : β → Multiset ℕ → Prop} {E : Multiset ℕ → Prop}

theorem triple_callEq {m : Mem α} {f : α → Mem β} {Q1 : α → Multiset ℕ → Prop} {E1 : Multiset ℕ → Prop} (X P' : Multiset ℕ)
    (e : P = X + P') (h1 : Triple X m Q1 E1) (hE : ∀ Y, E1 Y → E (Y + P'))
    (h2 : ∀ a Y, Q1 a Y → Triple (Y + P') (f a) Q E) : Triple P (m >>= f) Q E := by
  have : Take X P P' := ⟨e⟩
  exact triple_callE (X := X) h1 hE h2

/-- Calling a function that leaves blocks as they are. -/
theorem triple_callUse {m : Mem α} {f : α → Mem β} (X P' : Multiset ℕ)
    (e : P = X + P') (h1 : Triple X m (fun _ Y => Y = X) (fun _ => False))
    (h2 : ∀ a, Triple P (f a) Q E) : Triple P (m >>= f) Q E :=
  triple_callEq X P' e h1 (fun _ h => h.elim) (by rintro a Y rfl; rw [← e]; exact h2 a)

theorem triple_newE {m : Mem α} {f : α → Mem β} {Q1 : α → Multiset ℕ → Prop} {E1 : Multiset ℕ → Prop}
    (h1 : Triple 0 m Q1 E1) (hE : ∀ Y, E1 Y → E (Y + P)) (h2 : ∀ a Y, Q1 a Y → Triple (Y + P) (f a) Q E) :
    Triple P (m >>= f) Q E :=
  triple_callEq 0 P (zero_add P).symm h1 hE h2

theorem triple_mallocP {f : Ptr → Mem β} (h : ∀ b, Triple ({b} + P) (f (.to b)) Q E) : Triple P (mallocP >>= f) Q E :=
  triple_new mallocP_spec (by rintro p Y ⟨b, rfl, rfl⟩; exact h b)

theorem triple_freeM {s b : ℕ} {f : Unit → Mem β} [Take {s} P P''] [Take {b} P P'] (h : Triple P' (f ()) Q E) :
    Triple P (freeM (.to s) (.to b) >>= f) Q E := by
  unfold freeM
  rw [mem_assoc]
  exact triple_use (triple_free h)

theorem triple_freeE {s o : ℕ} {bs : List ℕ} {i : ℕ} {P1 P2 P3 : Multiset ℕ} {f : Unit → Mem β} (hi : i < bs.length)
    [Take {s} P P1] [Take {o} P P2] [Take {bs.getD i 0} P P3] (h : Triple P3 (f ()) Q E) :
    Triple P (freeE (.to s) ⟨.to o, bs.map Ptr.to⟩ i >>= f) Q E := by
  unfold freeE
  rw [mem_assoc]
  refine triple_use ?_
  rw [mem_assoc]
  have hi' : i < (bs.map Ptr.to).length := by simpa using hi
  refine triple_get hi' ?_
  have e : (bs.map Ptr.to)[i] = .to (bs.getD i 0) := by
    simp [List.getD_eq_getElem?_getD, hi]
  rw [e]
  exact triple_free h

theorem triple_getB {o : ℕ} {bs : List ℕ} {i : ℕ} {P1 : Multiset ℕ} {f : Ptr → Mem β} (hi : i < bs.length) [Take {o} P P1]
    (h : Triple P (f (.to (bs.getD i 0))) Q E) : Triple P (PArr.get ⟨.to o, bs.map Ptr.to⟩ i >>= f) Q E := by
  have hi' : i < (bs.map Ptr.to).length := by simpa using hi
  refine triple_get hi' ?_
  have e : (bs.map Ptr.to)[i] = .to (bs.getD i 0) := by
    simp [List.getD_eq_getElem?_getD, hi]
  rw [e]
  exact h

theorem triple_loopUse {f : ℕ → Mem Unit} {C : Multiset ℕ} (n : ℕ)
    (h : ∀ i, i < n → Triple C (f i) (fun _ Y => Y = C) (fun _ => False)) :
    Triple C (loopU n f) (fun _ Y => Y = C) (fun _ => False) := by
  have := triple_loopU (f := f) (C := C) (A := fun _ => 0) n (fun i hi => by rw [zero_add]; exact h i hi)
  have e : ((List.range n).map (fun _ => (0 : Multiset ℕ))).sum = 0 := by
    simp
  rwa [e, zero_add] at this

theorem triple_whenC {c : Bool} {m : Mem Unit} {f : Unit → Mem β} (ht : c = true → Triple P (m >>= f) Q E)
    (hf : c = false → Triple P (f ()) Q E) : Triple P (whenC c m >>= f) Q E := by
  cases c
  · exact hf rfl
  · exact ht rfl

theorem triple_pick {c : Bool} {m1 m2 : Mem α} {f : α → Mem β} (ht : c = true → Triple P (m1 >>= f) Q E)
    (hf : c = false → Triple P (m2 >>= f) Q E) : Triple P (pick c m1 m2 >>= f) Q E := by
  cases c
  · exact hf rfl
  · exact ht rfl

end rules

/-! ## Lists of blocks -/

theorem getD_mem_coe {bs : List ℕ} {i : ℕ} (hi : i < bs.length) : ∃ R, (bs : Multiset ℕ) = {bs.getD i 0} + R := by
  refine ⟨(bs : Multiset ℕ).erase (bs.getD i 0), ?_⟩
  have : bs.getD i 0 ∈ (bs : Multiset ℕ) := by
    rw [List.getD_eq_getElem?_getD, List.getElem?_eq_getElem hi, Option.getD_some]
    exact List.getElem_mem hi
  rw [Multiset.singleton_add, Multiset.cons_erase this]

theorem ptrs_blocks {l : List Ptr} {Xs : List (Multiset ℕ)} (h : List.Forall₂ PtrAt l Xs) :
    ∃ bs : List ℕ, l = bs.map Ptr.to ∧ Xs.sum = (bs : Multiset ℕ) := by
  induction h with
  | nil => exact ⟨[], rfl, rfl⟩
  | cons h _ ih =>
    obtain ⟨bs, rfl, e⟩ := ih
    obtain ⟨b, rfl, rfl⟩ := h
    exact ⟨b :: bs, rfl, by rw [List.sum_cons, e]; rfl⟩

theorem blocks_ptrs (bs : List ℕ) : ∃ Xs, List.Forall₂ PtrAt (bs.map Ptr.to) Xs ∧ Xs.sum = (bs : Multiset ℕ) := by
  induction bs with
  | nil => exact ⟨[], List.Forall₂.nil, rfl⟩
  | cons b bs ih =>
    obtain ⟨Xs, h, e⟩ := ih
    exact ⟨{b} :: Xs, List.Forall₂.cons ⟨b, rfl, rfl⟩ h, by rw [List.sum_cons, e]; rfl⟩

theorem arrAt_iff {n : ℕ} {a : PArr Ptr} {X : Multiset ℕ} :
    ArrAt PtrAt n a X ↔ ∃ (o : ℕ) (bs : List ℕ), a = ⟨.to o, bs.map Ptr.to⟩ ∧ bs.length = n ∧ X = {o} + (bs : Multiset ℕ) := by
  constructor
  · rintro ⟨o, l, Xs, rfl, hl, hF, rfl⟩
    obtain ⟨bs, rfl, e⟩ := ptrs_blocks hF
    exact ⟨o, bs, rfl, by simpa using hl, by rw [e]⟩
  · rintro ⟨o, bs, rfl, hl, rfl⟩
    obtain ⟨Xs, hF, e⟩ := blocks_ptrs bs
    exact ⟨o, _, Xs, rfl, by simpa using hl, hF, by rw [e]⟩

theorem sum_blocks (bs : List ℕ) :
    ((List.range bs.length).map fun i => ({bs.getD i 0} : Multiset ℕ)).sum = (bs : Multiset ℕ) := by
  have : ((List.range bs.length).map fun i => ({bs.getD i 0} : Multiset ℕ)) = bs.map fun b => {b} := by
    refine List.ext_getElem (by simp) fun i h1 h2 => ?_
    simp at h2
    simp [List.getD_eq_getElem?_getD, h2]
  rw [this]
  clear this
  induction bs with
  | nil => rfl
  | cons b bs ih => rw [List.map_cons, List.sum_cons, ih]; rfl

theorem sum_map_add2 (n : ℕ) (A B : ℕ → Multiset ℕ) :
    ((List.range n).map fun i => A i + B i).sum = ((List.range n).map A).sum + ((List.range n).map B).sum := by
  induction n with
  | zero => rfl
  | succ n ih =>
    simp only [List.range_succ, List.map_append, List.sum_append, ih, List.map_cons, List.map_nil, List.sum_cons, List.sum_nil]
    abel

/-- Loops that free element `i` of one array of blocks. -/
theorem sum_blocks' {bs : List ℕ} {n : ℕ} (h : bs.length = n) :
    ((List.range n).map fun i => ({bs.getD i 0} : Multiset ℕ)).sum = (bs : Multiset ℕ) := h ▸ sum_blocks bs

/-- Access to element `i` of an array all of whose elements are there. -/
theorem triple_useB {β : Type} {P P' : Multiset ℕ} {Q : β → Multiset ℕ → Prop} {E : Multiset ℕ → Prop} {bs : List ℕ} {i : ℕ}
    {f : Unit → Mem β} (hi : i < bs.length) [t : Take (bs : Multiset ℕ) P P'] (h : Triple P (f ()) Q E) :
    Triple P (use (.to (bs.getD i 0)) >>= f) Q E := by
  obtain ⟨R, e⟩ := getD_mem_coe hi
  have e2 : P = {bs.getD i 0} + (R + P') := by rw [t.eq, e, add_assoc]
  have : Take {bs.getD i 0} P (R + P') := ⟨e2⟩
  exact triple_use h

/-- Loops that allocate and use other blocks. -/
theorem triple_loopCF {α : Type} {f : ℕ → Mem α} {B : α → Multiset ℕ → Prop} {C : Multiset ℕ} (n : ℕ)
    (h : ∀ i, i < n → Triple C (f i) (fun a Y => ∃ Z, B a Z ∧ Y = Z + C) (fun _ => False)) :
    Triple C (loopC n f) (fun l Y => l.length = n ∧ ∃ Ys, List.Forall₂ B l Ys ∧ Y = Ys.sum + C) (fun _ => False) := by
  induction n with
  | zero => exact triple_pure ⟨rfl, [], List.Forall₂.nil, by simp⟩
  | succ n ih =>
    refine triple_bind (ih fun i hi => h i (Nat.lt_succ_of_lt hi)) ?_
    rintro l Y ⟨hl, Ys, hY, rfl⟩
    refine triple_callEq C Ys.sum (add_comm _ _) (h n (Nat.lt_succ_self n)) (fun _ h => h.elim) ?_
    rintro a Y ⟨Z, hZ, rfl⟩
    refine triple_pure ⟨by simp [hl], Ys ++ [Z], ?_, ?_⟩
    · exact List.rel_append hY (List.Forall₂.cons hZ List.Forall₂.nil)
    · simp only [List.sum_append, List.sum_cons, List.sum_nil]; abel

/-! ## Binning schemes -/

/-- The blocks of a binning scheme. -/
def BinsAt (b : Bins) (X : Multiset ℕ) : Prop :=
  ∃ s n X1 X2 X3, b.self = .to s ∧ b.nellList = .to n ∧ ArrAt PtrAt b.nBands b.ellList X1 ∧ ArrAt PtrAt b.nBands b.wList X2 ∧
    ArrAt PtrAt b.nBands b.fEll X3 ∧ X = {s} + ({n} + (X1 + (X2 + X3)))

theorem binsFree_spec {b : Bins} {X : Multiset ℕ} (h : BinsAt b X) :
    Triple X (binsFree b) (fun _ Y => Y = 0) (fun _ => False) := by
  obtain ⟨self, ellMax, nBands, nell, ell, w, f⟩ := b
  obtain ⟨s, n, X1, X2, X3, h1, h2, h3, h4, h5, rfl⟩ := h
  dsimp only at h1 h2 h3 h4 h5
  obtain ⟨eo, es, rfl, he, rfl⟩ := arrAt_iff.1 h3
  obtain ⟨wo, ws, rfl, hw, rfl⟩ := arrAt_iff.1 h4
  obtain ⟨fo, fs, rfl, hf, rfl⟩ := arrAt_iff.1 h5
  subst h1 h2
  unfold binsFree
  dsimp only
  rw [if_neg (by simp)]
  refine triple_freeM ?_
  refine triple_callEq (((List.range nBands).map fun i => ({es.getD i 0} + ({ws.getD i 0} + {fs.getD i 0}))).sum +
    ({s} + ({eo} + ({wo} + {fo})))) 0 ?_ (triple_loopU nBands ?_) (fun _ h => h.elim) ?_
  · rw [sum_map_add2, sum_map_add2, sum_blocks' he, sum_blocks' hw, sum_blocks' hf]
    abel
  · intro i hi
    refine triple_freeE (he ▸ hi) ?_
    refine triple_freeE (hw ▸ hi) ?_
    exact triple_last (triple_freeE (hf ▸ hi) (triple_pure rfl))
  · rintro ⟨⟩ Y rfl
    rw [add_zero]
    refine triple_freeM (triple_freeM (triple_freeM ?_))
    exact triple_last (triple_free (triple_pure (by simp)))

/-- The blocks of the three lists of one band. -/
def RowAt (t : Ptr × Ptr × Ptr) (X : Multiset ℕ) : Prop := ∃ a b c : ℕ, t = (.to a, .to b, .to c) ∧ X = {a} + ({b} + {c})

theorem rows_blocks {l : List (Ptr × Ptr × Ptr)} {Xs : List (Multiset ℕ)} (h : List.Forall₂ RowAt l Xs) :
    ∃ es ws fs : List ℕ, l.map (·.1) = es.map Ptr.to ∧ l.map (·.2.1) = ws.map Ptr.to ∧ l.map (·.2.2) = fs.map Ptr.to ∧
      es.length = l.length ∧ ws.length = l.length ∧ fs.length = l.length ∧
      Xs.sum = (es : Multiset ℕ) + ((ws : Multiset ℕ) + (fs : Multiset ℕ)) := by
  induction h with
  | nil => exact ⟨[], [], [], rfl, rfl, rfl, rfl, rfl, rfl, rfl⟩
  | cons h _ ih =>
    obtain ⟨es, ws, fs, e1, e2, e3, l1, l2, l3, e⟩ := ih
    obtain ⟨a, b, c, rfl, rfl⟩ := h
    refine ⟨a :: es, b :: ws, c :: fs, by simp [e1], by simp [e2], by simp [e3], by simp [l1], by simp [l2], by simp [l3], ?_⟩
    rw [List.sum_cons, e, ← Multiset.cons_coe, ← Multiset.cons_coe, ← Multiset.cons_coe, ← Multiset.singleton_add, ← Multiset.singleton_add,
      ← Multiset.singleton_add]
    abel

theorem rows_binsAt {l : List (Ptr × Ptr × Ptr)} {Xs : List (Multiset ℕ)} {n : ℕ} (h : List.Forall₂ RowAt l Xs) (hl : l.length = n)
    (ellMax s ne eo wo fo : ℕ) :
    BinsAt ⟨.to s, ellMax, n, .to ne, ⟨.to eo, l.map (·.1)⟩, ⟨.to wo, l.map (·.2.1)⟩, ⟨.to fo, l.map (·.2.2)⟩⟩
      (Xs.sum + ({fo} + ({wo} + ({eo} + ({ne} + {s}))))) := by
  obtain ⟨es, ws, fs, e1, e2, e3, l1, l2, l3, e⟩ := rows_blocks h
  refine ⟨s, ne, {eo} + (es : Multiset ℕ), {wo} + (ws : Multiset ℕ), {fo} + (fs : Multiset ℕ), rfl, rfl,
    arrAt_iff.2 ⟨eo, es, ?_, l1.trans hl, rfl⟩, arrAt_iff.2 ⟨wo, ws, ?_, l2.trans hl, rfl⟩,
    arrAt_iff.2 ⟨fo, fs, ?_, l3.trans hl, rfl⟩, ?_⟩
  · rw [e1]
  · rw [e2]
  · rw [e3]
  · rw [e]; abel

theorem rows_card {l : List (Ptr × Ptr × Ptr)} {Xs : List (Multiset ℕ)} (h : List.Forall₂ RowAt l Xs) :
    Xs.sum.card = 3 * l.length := by
  obtain ⟨es, ws, fs, -, -, -, l1, l2, l3, e⟩ := rows_blocks h
  rw [e]
  simp only [Multiset.card_add, Multiset.coe_card, l1, l2, l3]
  omega

theorem binsCreate_spec (nBands ellMax : ℕ) (good : ℕ → Bool) :
    Triple 0 (binsCreate nBands ellMax good)
      (fun b Y => BinsAt b Y ∧ b.nBands = nBands ∧ b.ellMax = ellMax ∧ ∀ i < nBands, good i = true)
      (fun Y => Y.card = 5 + 3 * nBands ∧ ∃ i < nBands, good i = false) := by
  unfold binsCreate
  refine triple_mallocP fun s => triple_mallocP fun ne => triple_mallocP fun eo => triple_mallocP fun wo =>
    triple_mallocP fun fo => triple_new (triple_loopC (B := RowAt) nBands ?_) ?_
  · intro i hi
    refine triple_mallocP fun a => triple_mallocP fun b => triple_mallocP fun c => triple_pure ⟨a, b, c, rfl, ?_⟩
    abel
  · rintro l Y ⟨hl, Ys, hF, rfl⟩
    have hloop : ∀ n, n ≤ nBands → Triple 0 (loopU n fun ii => whenC (!good ii) raiseErr)
        (fun _ Y => Y = 0 ∧ ∀ i < n, good i = true) (fun Y => Y = 0 ∧ ∃ i < nBands, good i = false) := by
      intro n hn
      induction n with
      | zero => exact triple_pure ⟨rfl, fun i hi => absurd hi (Nat.not_lt_zero i)⟩
      | succ n ih =>
        refine triple_bind (ih (by omega)) ?_
        rintro ⟨⟩ Y ⟨rfl, hg⟩
        by_cases h : good n = true
        · unfold whenC
          dsimp only
          rw [if_neg (by simp [h])]
          refine triple_pure ⟨rfl, fun i hi => ?_⟩
          rcases Nat.lt_succ_iff_lt_or_eq.1 hi with hi | rfl
          · exact hg i hi
          · exact h
        · unfold whenC
          dsimp only
          rw [if_pos (by simp [h])]
          exact triple_raise ⟨rfl, n, by omega, by simpa using h⟩
    refine triple_newE (hloop nBands le_rfl) ?_ ?_
    · rintro Y ⟨rfl, hb⟩
      refine ⟨?_, hb⟩
      simp only [Multiset.card_add, Multiset.card_zero, Multiset.card_singleton, rows_card hF, hl]
      omega
    · rintro ⟨⟩ Y ⟨rfl, hg⟩
      refine triple_pure ⟨?_, rfl, rfl, hg⟩
      rw [zero_add]
      have := rows_binsAt hF hl ellMax s ne eo wo fo
      simpa only [add_zero] using this

theorem storeBins_spec {b : Bins} {X : Multiset ℕ} (h : BinsAt b X) :
    Triple X (storeBins b) (fun b' Y => ∃ Z, BinsAt b' Z ∧ b'.nBands = b.nBands ∧ b'.ellMax = b.ellMax ∧ Y = Z + X)
      (fun _ => False) := by
  obtain ⟨self, ellMax, nBands, nell, ell, w, f⟩ := b
  obtain ⟨s, n, X1, X2, X3, h1, h2, h3, h4, h5, rfl⟩ := h
  dsimp only at h1 h2 h3 h4 h5
  obtain ⟨eo, es, rfl, he, rfl⟩ := arrAt_iff.1 h3
  obtain ⟨wo, ws, rfl, hw, rfl⟩ := arrAt_iff.1 h4
  obtain ⟨fo, fs, rfl, hf, rfl⟩ := arrAt_iff.1 h5
  subst h1 h2
  unfold storeBins
  dsimp only
  refine triple_mallocP fun s' => triple_use (triple_mallocP fun ne' => triple_use (triple_mallocP fun eo' =>
    triple_mallocP fun wo' => triple_mallocP fun fo' => ?_))
  refine triple_callEq ({eo} + ((es : Multiset ℕ) + ({wo} + ((ws : Multiset ℕ) + ({fo} + (fs : Multiset ℕ))))))
    ({s} + ({n} + ({fo'} + ({wo'} + ({eo'} + ({ne'} + {s'})))))) (by abel) (triple_loopCF (B := RowAt) nBands ?_)
    (fun _ h => h.elim) ?_
  · intro i hi
    refine triple_mallocP fun a => triple_mallocP fun b => triple_mallocP fun c => ?_
    refine triple_getB (he ▸ hi) (triple_useB (he ▸ hi) (triple_getB (hw ▸ hi) (triple_useB (hw ▸ hi)
      (triple_getB (hf ▸ hi) (triple_useB (hf ▸ hi) (triple_pure ⟨_, ⟨a, b, c, rfl, rfl⟩, ?_⟩))))))
    abel
  · rintro l Y ⟨hl, Ys, hF, rfl⟩
    refine triple_pure ⟨_, rows_binsAt hF hl ellMax s' ne' eo' wo' fo', rfl, rfl, ?_⟩
    abel

/-! ## Workspaces -/

/-- The rows of the unbinned matrix, if it is stored. -/
def UnbAt (n : ℕ) (a : PArr Ptr) (u : Bool) (X : Multiset ℕ) : Prop :=
  if u then ArrAt PtrAt n a X else a = nullArr ∧ X = 0

/-- The blocks of a workspace; `u` tells whether the unbinned matrix is stored. -/
def WspAt (w : Wsp) (u : Bool) (X : Multiset ℕ) : Prop :=
  ∃ s pc be bi pe Xu Xb, w.self = .to s ∧ w.pclMasks = .to pc ∧ w.beamProd = .to be ∧ w.binned = .to bi ∧ w.perm = .to pe ∧
    UnbAt (w.ncls * (w.lmax + 1)) w.unbinned u Xu ∧ BinsAt w.bin Xb ∧ w.bin.ellMax = w.lmax ∧
    X = {s} + ({pc} + ({be} + ({bi} + ({pe} + (Xu + Xb)))))

theorem wspNew_spec {bin : Bins} {X : Multiset ℕ} (h : BinsAt bin X) (ncls : ℕ) (fkp : Bool) :
    Triple X (wspNew ncls bin fkp)
      (fun w Y => ∃ Z, WspAt w true Z ∧ w.ncls = ncls ∧ w.lmax = bin.ellMax ∧ w.fkp = fkp ∧ w.bin.nBands = bin.nBands ∧ Y = Z + X)
      (fun _ => False) := by
  have hb := h
  obtain ⟨s, n, X1, X2, X3, h1, -, -, -, -, rfl⟩ := h
  unfold wspNew
  rw [h1]
  refine triple_mallocP fun s' => triple_use (triple_mallocP fun pc => triple_mallocP fun be => ?_)
  refine triple_new (allocArr_spec (B := PtrAt) _ fun _ _ => mallocP_spec) ?_
  intro unb Xu hu
  refine triple_callEq ({s} + ({n} + (X1 + (X2 + X3)))) (Xu + ({be} + ({pc} + {s'}))) (by abel) (storeBins_spec hb)
    (fun _ h => h.elim) ?_
  rintro b Y ⟨Z, hZ, hn, hm, rfl⟩
  refine triple_mallocP fun bi => triple_mallocP fun pe => triple_pure ?_
  refine ⟨_, ⟨s', pc, be, bi, pe, Xu, Z, rfl, rfl, rfl, rfl, rfl, hu, hZ, hm, rfl⟩, rfl, rfl, rfl, hn, ?_⟩
  abel

theorem wspFree_spec {w : Wsp} {u : Bool} {X : Multiset ℕ} (h : WspAt w u X) :
    Triple X (wspFree w) (fun _ Y => Y = 0) (fun _ => False) := by
  obtain ⟨self, lmax, ncls, fkp, pclM, beamP, unb, bin, binned, perm⟩ := w
  obtain ⟨s, pc, be, bi, pe, Xu, Xb, h1, h2, h3, h4, h5, hu, hb, -, rfl⟩ := h
  dsimp only at h1 h2 h3 h4 h5 hu hb
  subst h1 h2 h3 h4 h5
  unfold wspFree
  dsimp only
  refine triple_freeM (triple_freeM (triple_use ?_))
  refine triple_callEq Xb ({s} + ({pc} + ({be} + Xu))) (by abel) (binsFree_spec hb) (fun _ h => h.elim) ?_
  rintro ⟨⟩ Y rfl
  rw [zero_add]
  have hrest : Triple ({s} + ({pc} + {be})) (freeM (.to s) (.to be) >>= fun _ => freeM (.to s) (.to pc) >>= fun _ => free (.to s))
      (fun _ Y => Y = 0) (fun _ => False) :=
    triple_freeM (triple_freeM (triple_last (triple_free (triple_pure (by simp)))))
  refine triple_whenC (fun hc => ?_) (fun hc => ?_)
  · cases u with
    | false =>
      obtain ⟨rfl, -⟩ := hu
      simp [nullArr] at hc
    | true =>
      obtain ⟨o, bs, rfl, hl, rfl⟩ := arrAt_iff.1 hu
      rw [mem_assoc]
      refine triple_callEq (((List.range (ncls * (lmax + 1))).map fun i => ({bs.getD i 0} : Multiset ℕ)).sum + ({s} + {o}))
        ({pc} + {be}) (by rw [sum_blocks' hl]; abel)
        (triple_loopU _ fun i hi => triple_last (triple_freeE (hl ▸ hi) (triple_pure rfl))) (fun _ h => h.elim) ?_
      rintro ⟨⟩ Y rfl
      refine triple_freeM (triple_congr ?_ hrest)
      abel
  · cases u with
    | false =>
      obtain ⟨rfl, rfl⟩ := hu
      rw [add_zero]
      exact hrest
    | true =>
      obtain ⟨o, bs, rfl, hl, rfl⟩ := arrAt_iff.1 hu
      simp at hc

theorem binCoupling_spec {w : Wsp} {u : Bool} {X : Multiset ℕ} (h : WspAt w u X) (hu : u = true ∨ w.fkp = true) :
    Triple X (binCoupling w) (fun _ Y => Y = X) (fun _ => False) := by
  obtain ⟨self, lmax, ncls, fkp, pclM, beamP, unb, bin, binned, perm⟩ := w
  obtain ⟨s, pc, be, bi, pe, Xu, Xb, h1, h2, h3, h4, h5, hU, hb, hm, rfl⟩ := h
  obtain ⟨bself, ellMax, nBands, nell, ell, w, f⟩ := bin
  obtain ⟨bs, n, X1, X2, X3, b1, b2, b3, b4, b5, rfl⟩ := hb
  dsimp only at h1 h2 h3 h4 h5 hU hm hu b1 b2 b3 b4 b5
  obtain ⟨eo, es, rfl, he, rfl⟩ := arrAt_iff.1 b3
  obtain ⟨wo, ws, rfl, hw, rfl⟩ := arrAt_iff.1 b4
  obtain ⟨fo, fs, rfl, hf, rfl⟩ := arrAt_iff.1 b5
  subst h1 h2 h3 h4 h5 b1 b2 hm
  unfold binCoupling
  dsimp only
  refine triple_use (triple_use ?_)
  refine triple_whenC (fun hc => ?_) (fun hc => triple_use (triple_last (triple_use (triple_pure rfl))))
  have hu' : u = true := hu.resolve_right (by simpa using hc)
  subst hu'
  obtain ⟨o, rs, rfl, hl, rfl⟩ := arrAt_iff.1 hU
  refine triple_callUse _ 0 (add_zero _).symm (triple_loopUse _ fun i hi => ?_) (fun _ => triple_use (triple_last (triple_use
    (triple_pure rfl))))
  refine triple_getB (he ▸ hi) (triple_useB (he ▸ hi) (triple_getB (hw ▸ hi) (triple_useB (hw ▸ hi)
      (triple_getB (hf ▸ hi) (triple_useB (hf ▸ hi) (triple_use ?_))))))
  exact triple_loopUse _ fun r hr => triple_getB (hl ▸ hr) (triple_last (triple_useB (hl ▸ hr) (triple_pure rfl)))

theorem updateMatrix_spec {w : Wsp} {X : Multiset ℕ} (h : WspAt w true X) (nRows : ℕ) :
    Triple X (updateMatrix w nRows) (fun _ Y => Y = X) (fun Y => Y = X) := by
  have hw := h
  obtain ⟨s, pc, be, bi, pe, Xu, Xb, h1, h2, h3, h4, h5, hU, hb, hm, rfl⟩ := h
  obtain ⟨o, rs, e, hl, rfl⟩ := arrAt_iff.1 hU
  unfold updateMatrix
  rw [h1]
  refine triple_use ?_
  by_cases hn : nRows = w.ncls * (w.lmax + 1)
  · rw [if_neg (by simp [hn]), hn, e]
    refine triple_callUse _ 0 (add_zero _).symm (triple_loopUse _ fun r hr => triple_getB (hl ▸ hr)
      (triple_last (triple_useB (hl ▸ hr) (triple_pure rfl)))) (fun _ => ?_)
    exact triple_mono (binCoupling_spec hw (Or.inl rfl)) (fun _ _ h => h) (fun _ h => h.elim)
  · rw [if_pos hn]
    exact triple_raise rfl

theorem updateBeams_spec {w : Wsp} {u : Bool} {X : Multiset ℕ} (h : WspAt w u X) (hu : u = true ∨ w.fkp = true) (long : Bool) :
    Triple X (updateBeams w long) (fun _ Y => Y = X) (fun Y => Y = X) := by
  have hw := h
  obtain ⟨s, pc, be, bi, pe, Xu, Xb, h1, h2, h3, h4, h5, hU, hb, hm, rfl⟩ := h
  unfold updateBeams
  rw [h1, h3]
  refine triple_use ?_
  cases long
  · exact triple_raise rfl
  · exact triple_use (triple_mono (binCoupling_spec hw hu) (fun _ _ h => h) (fun _ h => h.elim))

theorem replaceBins_spec {w : Wsp} {u : Bool} {X : Multiset ℕ} {bin : Bins} {B : Multiset ℕ} (h : WspAt w u X)
    (hB : BinsAt bin B) (hne : bin.ellMax = w.bin.ellMax) :
    Triple (X + B) (replaceBins w bin) (fun w' Y => ∃ X', WspAt w' u X' ∧ w'.fkp = w.fkp ∧ w'.ncls = w.ncls ∧ w'.lmax = w.lmax ∧
      w'.bin.nBands = bin.nBands ∧ Y = X' + B) (fun _ => False) := by
  have hB' := hB
  obtain ⟨self, lmax, ncls, fkp, pclM, beamP, unb, wb, binned, perm⟩ := w
  obtain ⟨s, pc, be, bi, pe, Xu, Xb, h1, h2, h3, h4, h5, hU, hb, hm, rfl⟩ := h
  obtain ⟨cs, cn, C1, C2, C3, c1, c2, c3, c4, c5, rfl⟩ := hB
  dsimp only at h1 h2 h3 h4 h5 hU hm hne
  subst h1 h2 h3 h4 h5
  unfold replaceBins
  dsimp only
  refine triple_use ?_
  refine triple_callEq _ ({s} + ({pc} + ({be} + ({bi} + ({pe} + (Xu + ({cs} + ({cn} + (C1 + (C2 + C3))))))))))
    (by abel) (binsFree_spec hb) (fun _ h => h.elim) ?_
  rintro ⟨⟩ Y rfl
  rw [zero_add]
  refine triple_callEq _ ({s} + ({pc} + ({be} + ({bi} + ({pe} + Xu)))))
    (by abel) (storeBins_spec hB') (fun _ h => h.elim) ?_
  rintro b Y ⟨Z, hZ, hn, hm', rfl⟩
  refine triple_freeM (triple_freeM (triple_mallocP fun bi' => triple_mallocP fun pe' => ?_))
  have hw' : WspAt ⟨.to s, lmax, ncls, fkp, .to pc, .to be, unb, b, .to bi', .to pe'⟩ u
      ({s} + ({pc} + ({be} + ({bi'} + ({pe'} + (Xu + Z)))))) :=
    ⟨s, pc, be, bi', pe', Xu, Z, rfl, rfl, rfl, rfl, rfl, hU, hZ, hm'.trans (hne.trans hm), rfl⟩
  refine triple_pure ⟨_, hw', rfl, rfl, rfl, hn, ?_⟩
  abel

theorem updateBinning_spec {w : Wsp} {u : Bool} {X : Multiset ℕ} {bin : Bins} {B : Multiset ℕ} (h : WspAt w u X)
    (hu : u = true ∨ w.fkp = true) (hB : BinsAt bin B) :
    Triple (X + B) (updateBinning w bin) (fun w' Y => ∃ X', WspAt w' u X' ∧ w'.fkp = w.fkp ∧ w'.ncls = w.ncls ∧ w'.lmax = w.lmax ∧
      w'.bin.nBands = bin.nBands ∧ Y = X' + B) (fun Y => Y = X + B) := by
  have hw := h
  have hB' := hB
  obtain ⟨s, pc, be, bi, pe, Xu, Xb, h1, h2, h3, h4, h5, hU, hb, hm, rfl⟩ := h
  obtain ⟨bs, n, X1, X2, X3, b1, b2, b3, b4, b5, rfl⟩ := hb
  obtain ⟨cs, cn, C1, C2, C3, c1, c2, c3, c4, c5, rfl⟩ := hB
  unfold updateBinning
  rw [b1, c1, h1]
  refine triple_use (triple_use (triple_use ?_))
  by_cases hne : bin.ellMax = w.bin.ellMax
  · rw [if_neg (by simp [hne])]
    refine triple_bind (triple_mono (replaceBins_spec hw hB' hne) (fun _ _ h => h) (fun _ h => h.elim)) ?_
    rintro w' Y ⟨X', hw', e1, e2, e3, e4, rfl⟩
    exact triple_callUse X' ({cs} + ({cn} + (C1 + (C2 + C3)))) rfl (binCoupling_spec hw' (e1 ▸ hu))
      (fun _ => triple_pure ⟨_, hw', e1, e2, e3, e4, rfl⟩)
  · rw [if_pos hne]
    exact triple_raise rfl

/-! ## Coupling coefficients -/

/-- Blocks of something that is allocated if `c`, and `z` otherwise. -/
def OptAt {α : Type} (c : Bool) (B : α → Multiset ℕ → Prop) (z a : α) (X : Multiset ℕ) : Prop :=
  if c then B a X else a = z ∧ X = 0

theorem pick_spec {α : Type} {c : Bool} {m : Mem α} {z : α} {B : α → Multiset ℕ → Prop} (h : Triple 0 m B (fun _ => False)) :
    Triple 0 (pick c m (pure z)) (OptAt c B z) (fun _ => False) := by
  cases c
  · exact triple_pure ⟨rfl, rfl⟩
  · exact h

theorem mallocIf_spec (c : Bool) : Triple 0 (mallocIf c) (OptAt c PtrAt .null) (fun _ => False) := pick_spec mallocP_spec

section rules
variable {β : Type} {P P' X : Multiset ℕ} {Q : β → Multiset ℕ → Prop} {E : Multiset ℕ → Prop}

theorem triple_freeOpt {c : Bool} {p : Ptr} {f : Unit → Mem β} (ho : OptAt c PtrAt .null p X) [t : Take X P P']
    (h : Triple P' (f ()) Q E) : Triple P (free p >>= f) Q E := by
  cases c
  · obtain ⟨rfl, rfl⟩ := ho
    refine triple_free_null (triple_congr ?_ h)
    rw [t.eq, zero_add]
  · obtain ⟨b, rfl, rfl⟩ := ho
    exact triple_free h

theorem triple_useOpt {c c' : Bool} {p : Ptr} {f : Unit → Mem β} (ho : OptAt c PtrAt .null p X) (hc : c' = true → c = true)
    [t : Take X P P'] (h : Triple P (f ()) Q E) : Triple P (whenC c' (use p) >>= f) Q E := by
  refine triple_whenC (fun e => ?_) (fun _ => h)
  have hc' := hc e
  subst hc'
  obtain ⟨b, rfl, rfl⟩ := ho
  exact triple_use h

end rules

theorem wignerThread_spec (h00 h0s hss ss2 pureAny : Bool) (work : ℕ) :
    Triple 0 (wignerThread h00 h0s hss ss2 pureAny work) (fun _ Y => Y = 0) (fun _ => False) := by
  unfold wignerThread
  refine triple_new (mallocIf_spec _) fun w00 A hA => triple_new (mallocIf_spec _) fun wss1 B hB => ?_
  refine triple_pick (fun e => ?_) (fun e => ?_)
  · subst e
    refine triple_mallocP fun c => triple_new (mallocIf_spec _) fun w12 D hD => triple_new (mallocIf_spec _) fun w02 F hF => ?_
    have hC : OptAt true PtrAt .null (.to c) {c} := ⟨c, rfl, rfl⟩
    refine triple_callUse (F + (D + ({c} + (B + A)))) 0 (by abel) (triple_loopUse _ fun i hi => ?_) fun _ => ?_
    · refine triple_useOpt hA id (triple_useOpt hB id (triple_useOpt hC id ?_))
      refine triple_whenC (fun e => ?_) (fun e => triple_last (triple_useOpt hC (fun _ => rfl) (triple_pure rfl)))
      subst e
      obtain ⟨d, rfl, rfl⟩ := hD
      obtain ⟨f, rfl, rfl⟩ := hF
      rw [mem_assoc]
      exact triple_use (triple_use (triple_last (triple_useOpt hC (fun _ => rfl) (triple_pure rfl))))
    · refine triple_freeOpt hA (triple_freeOpt hB ?_)
      refine triple_whenC (fun e => ?_) (fun e => by simp at e)
      refine triple_free (triple_freeOpt hD (triple_last (triple_freeOpt hF (triple_pure ?_))))
      simp
  · subst e
    rw [mem_pure_bind]
    refine triple_new (mallocIf_spec _) fun w12 D hD => triple_new (mallocIf_spec _) fun w02 F hF => ?_
    refine triple_callUse (F + (D + (B + A))) 0 (by abel) (triple_loopUse _ fun i hi => ?_) fun _ => ?_
    · refine triple_useOpt hA id (triple_useOpt hB id ?_)
      refine triple_whenC (fun e => by simp at e) (fun e => ?_)
      refine triple_whenC (fun e => ?_) (fun e => triple_last (triple_useOpt hB id (triple_pure rfl)))
      subst e
      obtain ⟨d, rfl, rfl⟩ := hD
      obtain ⟨f, rfl, rfl⟩ := hF
      rw [mem_assoc]
      exact triple_use (triple_use (triple_last (triple_useOpt hB id (triple_pure rfl))))
    · refine triple_freeOpt hA (triple_freeOpt hB ?_)
      refine triple_whenC (fun e => by simp at e) (fun e => ?_)
      refine triple_freeOpt hD (triple_last (triple_freeOpt hF (triple_pure ?_)))
      simp

theorem toepTable_spec (n : ℕ) : Triple 0 (toepTable n) (ArrAt (ArrAt PtrAt 2) n) (fun _ => False) :=
  allocArr_spec _ fun _ _ => allocArr_spec _ fun _ _ => mallocP_spec

theorem toepTableFree_spec {n : ℕ} {t : PArr (PArr Ptr)} {X : Multiset ℕ} (h : ArrAt (ArrAt PtrAt 2) n t X) :
    Triple X (toepTableFree n t) (fun _ Y => Y = 0) (fun _ => False) := by
  obtain ⟨o, l, Xs, rfl, rfl, hF, rfl⟩ := h
  unfold toepTableFree
  refine triple_callEq (Xs.sum + {o}) 0 (by abel) (triple_loopElems hF fun i hi Y hY => ?_) (fun _ h => h.elim) ?_
  · obtain ⟨q, bs, e, hl, rfl⟩ := arrAt_iff.1 hY
    obtain ⟨p0, p1, rfl⟩ := List.length_eq_two.1 hl
    have e' : (([p0, p1] : List ℕ) : Multiset ℕ) = {p0} + {p1} := rfl
    rw [e']
    refine triple_get hi ?_
    rw [e]
    refine triple_getB (by simp) ?_
    change Triple _ (free (.to p0) >>= _) _ _
    refine triple_free (triple_get hi ?_)
    rw [e]
    refine triple_getB (by simp) ?_
    change Triple _ (free (.to p1) >>= _) _ _
    refine triple_free (triple_get hi ?_)
    rw [e]
    exact triple_last (triple_free (triple_pure rfl))
  · rintro ⟨⟩ Y rfl
    exact triple_last (triple_free (triple_pure rfl))

theorem populateToeplitz_spec {c : Calc} {s : ℕ} (hs : c.self = .to s) (ss2 : Bool) (threads : ℕ) (work : ℕ → ℕ) :
    Triple {s} (populateToeplitz c ss2 threads work) (fun _ Y => Y = {s}) (fun _ => False) := by
  unfold populateToeplitz
  rw [hs]
  refine triple_use (triple_new (pick_spec (toepTable_spec _)) fun t00 A hA => triple_new (pick_spec (toepTable_spec _)) fun t0s B hB =>
    triple_new (pick_spec (toepTable_spec _)) fun tpp C hC => triple_new (pick_spec (toepTable_spec _)) fun tmm D hD => ?_)
  refine triple_callUse 0 _ (zero_add _).symm (triple_loopUse _ fun i hi => wignerThread_spec _ _ _ _ _ _) fun _ => ?_
  have t3 : Triple (A + {s}) (whenC c.has00 (toepTableFree c.npcl t00)) (fun _ Y => Y = {s}) (fun _ => False) := by
    refine triple_last (triple_whenC (fun e => ?_) (fun e => ?_))
    · rw [e] at hA
      exact triple_call (toepTableFree_spec hA) (by rintro ⟨⟩ Y rfl; exact triple_pure (zero_add _))
    · rw [e] at hA
      rw [hA.2, zero_add]
      exact triple_pure rfl
  have t2 : Triple (B + (A + {s})) (whenC c.has0s (toepTableFree c.npcl t0s) >>= fun _ =>
      whenC c.has00 (toepTableFree c.npcl t00)) (fun _ Y => Y = {s}) (fun _ => False) := by
    refine triple_whenC (fun e => ?_) (fun e => ?_)
    · rw [e] at hB
      exact triple_call (toepTableFree_spec hB) (by rintro ⟨⟩ Y rfl; rw [zero_add]; exact t3)
    · rw [e] at hB
      rw [hB.2, zero_add]
      exact t3
  refine triple_whenC (fun e => ?_) (fun e => ?_)
  · rw [e] at hC hD
    rw [mem_assoc]
    refine triple_call (toepTableFree_spec hC) ?_
    rintro ⟨⟩ Y rfl
    refine triple_call (toepTableFree_spec hD) ?_
    rintro ⟨⟩ Y rfl
    rw [zero_add, zero_add]
    exact t2
  · rw [e] at hC hD
    rw [hC.2, hD.2, zero_add, zero_add]
    exact t2

/-- Blocks of a square table. -/
abbrev XiAt (lmax : ℕ) : PArr Ptr → Multiset ℕ → Prop := ArrAt PtrAt (lmax + 1)

/-- The blocks of the coupling coefficients. -/
def CalcAt (c : Calc) (X : Multiset ℕ) : Prop :=
  ∃ s lf A B C D, c.self = .to s ∧ c.lfac = .to lf ∧
    OptAt c.has00 (ArrAt (XiAt c.lmax) c.npcl) nullArr c.xi00 A ∧
    OptAt c.has0s (ArrAt (ArrAt (XiAt c.lmax) c.npure0s) c.npcl) nullArr c.xi0s B ∧
    OptAt c.hasSs (ArrAt (ArrAt (XiAt c.lmax) c.npureSs) c.npcl) nullArr c.xiPp C ∧
    OptAt c.hasSs (ArrAt (ArrAt (XiAt c.lmax) c.npureSs) c.npcl) nullArr c.xiMm D ∧
    X = {s} + ({lf} + (A + (B + (C + D))))

/-- The sizes in a calculator follow from the arguments. -/
structure Calc.Fits (c : Calc) (a : CalcArgs) : Prop where
  has00 : c.has00 = a.has00
  has0s : c.has0s = a.has0s
  hasSs : c.hasSs = a.hasSs
  npcl : c.npcl = a.npcl
  npure0s : c.npure0s = a.npure0s
  npureSs : c.npureSs = a.npureSs
  lmax : c.lmax = a.lmax

theorem masterCoefficients_spec (a : CalcArgs) :
    Triple 0 (masterCoefficients a) (fun c Y => CalcAt c Y ∧ c.Fits a) (fun _ => False) := by
  unfold masterCoefficients
  have hx : Triple 0 (xiTable a.lmax) (XiAt a.lmax) (fun _ => False) := allocArr_spec _ fun _ _ => mallocP_spec
  refine triple_mallocP fun s => triple_new (pick_spec (allocArr_spec _ fun _ _ => hx)) fun x00 A hA =>
    triple_new (pick_spec (allocArr_spec _ fun _ _ => allocArr_spec _ fun _ _ => hx)) fun x0s B hB =>
    triple_new (pick_spec (allocArr_spec _ fun _ _ => allocArr_spec _ fun _ _ => hx)) fun xpp C hC =>
    triple_new (pick_spec (allocArr_spec _ fun _ _ => allocArr_spec _ fun _ _ => hx)) fun xmm D hD =>
    triple_mallocP fun lf => ?_
  have key : Triple ({lf} + (D + (C + (B + (A + ({s} + 0)))))) (loopU a.threads (fun t => wignerThread a.has00 a.has0s a.hasSs a.ss2
      a.pureAny (a.work t)) >>= fun _ => pure (Calc.mk (.to s) a.has00 a.has0s a.hasSs a.npcl a.npure0s a.npureSs a.lmax x00 x0s
      xpp xmm (.to lf))) (fun c Y => CalcAt c Y ∧ c.Fits a) (fun _ => False) := by
    refine triple_callUse 0 _ (zero_add _).symm (triple_loopUse _ fun i hi => wignerThread_spec _ _ _ _ _ _) fun _ => triple_pure ?_
    exact ⟨⟨s, lf, A, B, C, D, rfl, rfl, hA, hB, hC, hD, by abel⟩, ⟨rfl, rfl, rfl, rfl, rfl, rfl, rfl⟩⟩
  refine triple_whenC (fun e => ?_) (fun e => key)
  exact triple_callUse {s} ({lf} + (D + (C + (B + A)))) (by abel) (populateToeplitz_spec (c := ⟨_, _, _, _, _, _, _, _, _, _, _, _, _⟩) rfl _ _ _) fun _ => key

theorem freeXi_spec {s npcl npure lmax : ℕ} {x : PArr (PArr (PArr Ptr))} {X : Multiset ℕ}
    (h : ArrAt (ArrAt (XiAt lmax) npure) npcl x X) :
    Triple ({s} + X) (freeXi (.to s) npcl npure lmax x) (fun _ Y => Y = {s}) (fun _ => False) := by
  obtain ⟨o, l, Xs, rfl, rfl, hF, rfl⟩ := h
  unfold freeXi
  refine triple_callEq (Xs.sum + ({s} + {o})) 0 (by abel) (triple_loopElems hF fun i hi Y hY => ?_) (fun _ h => h.elim) ?_
  · obtain ⟨q, l2, Ys, e, rfl, hF2, rfl⟩ := hY
    refine triple_callEq (Ys.sum + ({q} + ({s} + {o}))) 0 (by abel) (triple_loopElems hF2 fun j hj Z hZ => ?_) (fun _ h => h.elim) ?_
    · obtain ⟨r, bs, e2, hl, rfl⟩ := arrAt_iff.1 hZ
      refine triple_callEq (((List.range (lmax + 1)).map fun i => ({bs.getD i 0} : Multiset ℕ)).sum + ({r} + ({q} + ({s} + {o})))) 0
        (by rw [sum_blocks' hl]; abel) (triple_loopU _ fun k hk => ?_) (fun _ h => h.elim) ?_
      · refine triple_use (triple_get hi ?_)
        rw [e]
        refine triple_get hj ?_
        rw [e2]
        exact triple_getB (hl ▸ hk) (triple_last (triple_free (triple_pure rfl)))
      · rintro ⟨⟩ Y rfl
        refine triple_use (triple_get hi ?_)
        rw [e]
        refine triple_get hj ?_
        rw [e2]
        exact triple_last (triple_free (triple_pure (by simp)))
    · rintro ⟨⟩ Y rfl
      refine triple_use (triple_get hi ?_)
      rw [e]
      exact triple_last (triple_free (triple_pure (by simp)))
  · rintro ⟨⟩ Y rfl
    exact triple_last (triple_freeM (triple_pure (by simp)))

theorem calcFree_spec {c : Calc} {X : Multiset ℕ} (h : CalcAt c X) :
    Triple X (calcFree c) (fun _ Y => Y = 0) (fun _ => False) := by
  obtain ⟨s, lf, A, B, C, D, h1, h2, hA, hB, hC, hD, rfl⟩ := h
  unfold calcFree
  rw [h1, h2]
  have t4 : Triple ({s} + {lf}) (freeM (.to s) (.to lf) >>= fun _ => free (.to s)) (fun _ Y => Y = 0) (fun _ => False) :=
    triple_freeM (triple_last (triple_free (triple_pure (by simp))))
  have t3 : Triple ({s} + ({lf} + (C + D))) (whenC c.hasSs (do
      freeXi (.to s) c.npcl c.npureSs c.lmax c.xiPp
      freeXi (.to s) c.npcl c.npureSs c.lmax c.xiMm) >>= fun _ => freeM (.to s) (.to lf) >>= fun _ => free (.to s))
      (fun _ Y => Y = 0) (fun _ => False) := by
    refine triple_whenC (fun e => ?_) (fun e => ?_)
    · rw [e] at hC hD
      rw [mem_assoc]
      refine triple_callEq ({s} + C) ({lf} + D) (by abel) (freeXi_spec hC) (fun _ h => h.elim) ?_
      rintro ⟨⟩ Y rfl
      refine triple_callEq ({s} + D) {lf} (by abel) (freeXi_spec hD) (fun _ h => h.elim) ?_
      rintro ⟨⟩ Y rfl
      exact t4
    · rw [e] at hC hD
      rw [hC.2, hD.2, add_zero, add_zero]
      exact t4
  have t2 : Triple ({s} + ({lf} + (B + (C + D)))) (whenC c.has0s (freeXi (.to s) c.npcl c.npure0s c.lmax c.xi0s) >>= fun _ =>
      whenC c.hasSs (do
      freeXi (.to s) c.npcl c.npureSs c.lmax c.xiPp
      freeXi (.to s) c.npcl c.npureSs c.lmax c.xiMm) >>= fun _ => freeM (.to s) (.to lf) >>= fun _ => free (.to s))
      (fun _ Y => Y = 0) (fun _ => False) := by
    refine triple_whenC (fun e => ?_) (fun e => ?_)
    · rw [e] at hB
      refine triple_callEq ({s} + B) ({lf} + (C + D)) (by abel) (freeXi_spec hB) (fun _ h => h.elim) ?_
      rintro ⟨⟩ Y rfl
      exact t3
    · rw [e] at hB
      rw [hB.2, zero_add]
      exact t3
  refine triple_use (triple_whenC (fun e => ?_) (fun e => ?_))
  · rw [e] at hA
    obtain ⟨o, l, Xs, ex, hl, hF, rfl⟩ := hA
    rw [ex, ← hl, mem_assoc]
    refine triple_callEq (Xs.sum + ({s} + {o})) ({lf} + (B + (C + D))) (by abel) (triple_loopElems hF fun i hi Y hY => ?_)
      (fun _ h => h.elim) ?_
    · obtain ⟨r, bs, e2, hl2, rfl⟩ := arrAt_iff.1 hY
      refine triple_callEq (((List.range (c.lmax + 1)).map fun i => ({bs.getD i 0} : Multiset ℕ)).sum + ({r} + ({s} + {o}))) 0
        (by rw [sum_blocks' hl2]; abel) (triple_loopU _ fun k hk => ?_) (fun _ h => h.elim) ?_
      · refine triple_use (triple_get hi ?_)
        rw [e2]
        exact triple_getB (hl2 ▸ hk) (triple_last (triple_free (triple_pure rfl)))
      · rintro ⟨⟩ Y rfl
        refine triple_use (triple_get hi ?_)
        rw [e2]
        exact triple_last (triple_free (triple_pure (by simp)))
    · rintro ⟨⟩ Y rfl
      rw [hl]
      exact triple_freeM (triple_congr (by abel) t2)
  · rw [e] at hA
    rw [hA.2, zero_add]
    exact t2

/-! ## Computing workspaces -/

theorem elem_split {α : Type} {B : α → Multiset ℕ → Prop} {l : List α} {Xs : List (Multiset ℕ)} (h : List.Forall₂ B l Xs) {i : ℕ}
    (hi : i < l.length) : ∃ X R, B l[i] X ∧ Xs.sum = X + R := by
  induction h generalizing i with
  | nil => exact absurd hi (Nat.not_lt_zero _)
  | @cons a b l1 l2 h _ ih =>
    cases i with
    | zero => exact ⟨b, l2.sum, h, List.sum_cons⟩
    | succ i =>
      obtain ⟨X, R, hX, e⟩ := ih (i := i) (by simpa using hi)
      exact ⟨X, b + R, hX, by rw [List.sum_cons, e]; abel⟩

theorem useXi_spec {x : PArr (PArr (PArr Ptr))} {lmax npure ip l2 : ℕ} {X : Multiset ℕ} (h : ArrAt (ArrAt (XiAt lmax) npure) 1 x X)
    (hip : ip < npure) (hl2 : l2 < lmax + 1) : Triple X (useXi x ip l2) (fun _ Y => Y = X) (fun _ => False) := by
  obtain ⟨o, l, Xs, rfl, hl, hF, rfl⟩ := h
  have h0 : 0 < l.length := by omega
  obtain ⟨Y, R, hY, e⟩ := elem_split hF h0
  obtain ⟨q, m, Ys, e1, hm, hG, rfl⟩ := hY
  have hip' : ip < m.length := by omega
  obtain ⟨Z, R', hZ, e'⟩ := elem_split hG hip'
  obtain ⟨r, bs, e2, hb, rfl⟩ := arrAt_iff.1 hZ
  have hl2' : l2 < bs.length := by omega
  unfold useXi
  rw [e, e']
  refine triple_get h0 ?_
  rw [e1]
  refine triple_get hip' ?_
  rw [e2]
  exact triple_getB hl2' (triple_last (triple_useB hl2' (triple_pure rfl)))

/-- Flags that fields can have: purification only for fields with spin. -/
structure WspArgs.Valid (a : WspArgs) : Prop where
  pe1 : a.pe1 ≤ 1
  pb1 : a.pb1 ≤ 1
  pe2 : a.pe2 ≤ 1
  pb2 : a.pb2 ≤ 1
  spin1 : a.spin1 = 0 → a.pe1 = 0 ∧ a.pb1 = 0
  spin2 : a.spin2 = 0 → a.pe2 = 0 ∧ a.pb2 = 0

theorem pureAny_npure0s {a : WspArgs} {lmax k : ℕ} (hk : k ≤ 1) (h : a.pe1 = 0 ∧ a.pb1 = 0 ∧ a.pe2 = 0 ∧ a.pb2 = 0 → k = 0) :
    k < (a.calc lmax).npure0s := by
  unfold CalcArgs.npure0s WspArgs.calc
  dsimp only
  by_cases hp : a.pe1 ≠ 0 ∨ a.pb1 ≠ 0 ∨ a.pe2 ≠ 0 ∨ a.pb2 ≠ 0
  · rw [if_pos (by simpa using hp)]; omega
  · rw [if_neg (by simpa using hp)]
    have := h (by omega)
    omega

theorem pureAny_npureSs {a : WspArgs} {lmax k : ℕ} (hk : k ≤ 2) (h : a.pe1 = 0 ∧ a.pb1 = 0 ∧ a.pe2 = 0 ∧ a.pb2 = 0 → k = 0) :
    k < (a.calc lmax).npureSs := by
  unfold CalcArgs.npureSs WspArgs.calc
  dsimp only
  by_cases hp : a.pe1 ≠ 0 ∨ a.pb1 ≠ 0 ∨ a.pe2 ≠ 0 ∨ a.pb2 ≠ 0
  · rw [if_pos (by simpa using hp)]; omega
  · rw [if_neg (by simpa using hp)]
    have := h (by omega)
    omega

theorem use00_spec {x : PArr (PArr Ptr)} {lmax l2 : ℕ} {X : Multiset ℕ} (h : ArrAt (XiAt lmax) 1 x X) (hl2 : l2 < lmax + 1) :
    Triple X (do
      let y ← x.get 0
      let p ← y.get l2
      use p) (fun _ Y => Y = X) (fun _ => False) := by
  obtain ⟨o, l, Xs, rfl, hl, hF, rfl⟩ := h
  have h0 : 0 < l.length := by omega
  obtain ⟨Y, R, hY, e⟩ := elem_split hF h0
  obtain ⟨r, bs, e2, hb, rfl⟩ := arrAt_iff.1 hY
  have hl2' : l2 < bs.length := by omega
  rw [e]
  refine triple_get h0 ?_
  rw [e2]
  exact triple_getB hl2' (triple_last (triple_useB hl2' (triple_pure rfl)))

theorem applyRow_spec {a : WspArgs} (ha : a.Valid) {c : Calc} {lmax l2 : ℕ}
    {X : Multiset ℕ} (h : CalcAt c X) (hf : c.Fits (a.calc lmax)) (hl2 : l2 < lmax + 1) :
    Triple X (applyRow a c l2) (fun _ Y => Y = X) (fun _ => False) := by
  obtain ⟨s, lf, A, B, C, D, h1, h2, hA, hB, hC, hD, rfl⟩ := h
  rw [hf.has00, hf.lmax, hf.npcl] at hA
  rw [hf.has0s, hf.lmax, hf.npcl, hf.npure0s] at hB
  rw [hf.hasSs, hf.lmax, hf.npcl, hf.npureSs] at hC hD
  have v := ha
  obtain ⟨v1, v2, v3, v4, v5, v6⟩ := v
  have uB : (a.calc lmax).has0s = true → ∀ k, k < (a.calc lmax).npure0s →
      Triple ({s} + ({lf} + (A + (B + (C + D))))) (useXi c.xi0s k l2) (fun _ Y => Y = {s} + ({lf} + (A + (B + (C + D)))))
        (fun _ => False) := by
    intro e k hk
    rw [e] at hB
    exact triple_last (triple_callUse B ({s} + ({lf} + (A + (C + D)))) (by abel) (useXi_spec hB hk hl2) fun _ => triple_pure rfl)
  have uC : (a.calc lmax).hasSs = true → ∀ k, k < (a.calc lmax).npureSs →
      Triple ({s} + ({lf} + (A + (B + (C + D))))) (useXi c.xiPp k l2) (fun _ Y => Y = {s} + ({lf} + (A + (B + (C + D)))))
        (fun _ => False) := by
    intro e k hk
    rw [e] at hC
    exact triple_last (triple_callUse C ({s} + ({lf} + (A + (B + D)))) (by abel) (useXi_spec hC hk hl2) fun _ => triple_pure rfl)
  have uD : (a.calc lmax).hasSs = true → ∀ k, k < (a.calc lmax).npureSs →
      Triple ({s} + ({lf} + (A + (B + (C + D))))) (useXi c.xiMm k l2) (fun _ Y => Y = {s} + ({lf} + (A + (B + (C + D)))))
        (fun _ => False) := by
    intro e k hk
    rw [e] at hD
    exact triple_last (triple_callUse D ({s} + ({lf} + (A + (B + C)))) (by abel) (useXi_spec hD hk hl2) fun _ => triple_pure rfl)
  have uA : (a.calc lmax).has00 = true →
      Triple ({s} + ({lf} + (A + (B + (C + D))))) (do
        let y ← c.xi00.get 0
        let p ← y.get l2
        use p) (fun _ Y => Y = {s} + ({lf} + (A + (B + (C + D)))))
        (fun _ => False) := by
    intro e
    rw [e] at hA
    exact triple_last (triple_callUse A ({s} + ({lf} + (B + (C + D)))) (by abel) (use00_spec hA hl2) fun _ => triple_pure rfl)
  generalize hP : {s} + ({lf} + (A + (B + (C + D)))) = P at *
  have step : ∀ {m : Mem Unit} {f : Unit → Mem Unit}, Triple P m (fun _ Y => Y = P) (fun _ => False) →
      Triple P (f ()) (fun _ Y => Y = P) (fun _ => False) → Triple P (m >>= f) (fun _ Y => Y = P) (fun _ => False) :=
    fun hm hf => triple_callUse P 0 (add_zero P).symm hm fun _ => hf
  have swhen : ∀ {c : Bool} {m : Mem Unit}, (c = true → Triple P m (fun _ Y => Y = P) (fun _ => False)) →
      Triple P (whenC c m) (fun _ Y => Y = P) (fun _ => False) := by
    intro c m hm
    cases c
    · exact triple_pure rfl
    · exact hm rfl
  unfold applyRow
  rw [h1]
  have hs : Triple P (use (.to s)) (fun _ Y => Y = P) (fun _ => False) := by
    rw [← hP]
    exact triple_last (triple_use (triple_pure rfl))
  refine step hs (step (swhen fun e => ?_) (step (swhen fun e => ?_) (step (swhen fun e => ?_) (swhen fun e => ?_))))
  · refine uA ?_
    have e : a.ncls = 1 := by simpa using e
    unfold WspArgs.ncls at e
    unfold CalcArgs.has00 CalcArgs.c1 CalcArgs.c2 WspArgs.calc
    split at e
    · omega
    · dsimp only
      split at e <;> split at e <;> simp_all
  · have e : a.ncls = 2 := by simpa using e
    have h0s : (a.calc lmax).has0s = true := by
      unfold WspArgs.ncls at e
      unfold CalcArgs.has0s CalcArgs.c1 CalcArgs.c2 WspArgs.calc
      split at e
      · omega
      · dsimp only
        split at e <;> split at e <;> simp_all
    have hz : a.spin1 = 0 ∨ a.spin2 = 0 := by
      unfold WspArgs.ncls at e
      split at e
      · omega
      · split at e <;> split at e <;> omega
    have := pureAny_npure0s (a := a) (lmax := lmax) (k := a.pe1 + a.pe2)
      (by rcases hz with hz | hz
          · have := v5 hz; omega
          · have := v6 hz; omega) (by omega)
    have := pureAny_npure0s (a := a) (lmax := lmax) (k := a.pb1 + a.pb2)
      (by rcases hz with hz | hz
          · have := v5 hz; omega
          · have := v6 hz; omega) (by omega)
    exact step (uB h0s _ ‹_›) (uB h0s _ ‹_›)
  · have e : a.ncls = 4 := by simpa using e
    have hss : (a.calc lmax).hasSs = true := by
      unfold WspArgs.ncls at e
      unfold CalcArgs.hasSs CalcArgs.c1 CalcArgs.c2 WspArgs.calc
      split at e
      · omega
      · dsimp only
        split at e <;> split at e <;> simp_all
    have p1 := pureAny_npureSs (a := a) (lmax := lmax) (k := a.pe1 + a.pe2) (by omega) (by omega)
    have p2 := pureAny_npureSs (a := a) (lmax := lmax) (k := a.pe1 + a.pb2) (by omega) (by omega)
    have p3 := pureAny_npureSs (a := a) (lmax := lmax) (k := a.pb1 + a.pe2) (by omega) (by omega)
    have p4 := pureAny_npureSs (a := a) (lmax := lmax) (k := a.pb1 + a.pb2) (by omega) (by omega)
    exact step (uD hss _ p1) (step (uD hss _ p2) (step (uD hss _ p3) (step (uD hss _ p4)
      (step (uC hss _ p1) (step (uC hss _ p2) (step (uC hss _ p3) (uC hss _ p4)))))))
  · have e : a.ncls = 7 := by simpa using e
    have ht : a.teb = true := by
      unfold WspArgs.ncls at e
      split at e
      · assumption
      · split at e <;> split at e <;> omega
    have h00 : (a.calc lmax).has00 = true := by simp [CalcArgs.has00, WspArgs.calc, ht]
    have h0s : (a.calc lmax).has0s = true := by simp [CalcArgs.has0s, WspArgs.calc, ht]
    have hss : (a.calc lmax).hasSs = true := by simp [CalcArgs.hasSs, WspArgs.calc, ht]
    have q1 := pureAny_npure0s (a := a) (lmax := lmax) (k := a.pe2) (by omega) (by omega)
    have q2 := pureAny_npure0s (a := a) (lmax := lmax) (k := a.pb2) (by omega) (by omega)
    have p1 := pureAny_npureSs (a := a) (lmax := lmax) (k := a.pe2 + a.pe2) (by omega) (by omega)
    have p2 := pureAny_npureSs (a := a) (lmax := lmax) (k := a.pe2 + a.pb2) (by omega) (by omega)
    have p3 := pureAny_npureSs (a := a) (lmax := lmax) (k := a.pb2 + a.pe2) (by omega) (by omega)
    have p4 := pureAny_npureSs (a := a) (lmax := lmax) (k := a.pb2 + a.pb2) (by omega) (by omega)
    have := step (uA h00) (f := fun _ => useXi c.xi0s a.pe2 l2 >>= fun _ => useXi c.xi0s a.pb2 l2 >>= fun _ =>
      useXi c.xiMm (a.pe2 + a.pe2) l2 >>= fun _ => useXi c.xiMm (a.pe2 + a.pb2) l2 >>= fun _ =>
      useXi c.xiMm (a.pb2 + a.pe2) l2 >>= fun _ => useXi c.xiMm (a.pb2 + a.pb2) l2 >>= fun _ =>
      useXi c.xiPp (a.pe2 + a.pe2) l2 >>= fun _ => useXi c.xiPp (a.pe2 + a.pb2) l2 >>= fun _ =>
      useXi c.xiPp (a.pb2 + a.pe2) l2 >>= fun _ => useXi c.xiPp (a.pb2 + a.pb2) l2)
      (step (uB h0s _ q1) (step (uB h0s _ q2) (step (uD hss _ p1) (step (uD hss _ p2)
      (step (uD hss _ p3) (step (uD hss _ p4) (step (uC hss _ p1) (step (uC hss _ p2) (step (uC hss _ p3) (uC hss _ p4))))))))))
    simpa only [mem_assoc] using this

theorem computeCoupling_spec {a : WspArgs} (ha : a.Valid) {bin : Bins} {X : Multiset ℕ} (h : BinsAt bin X) :
    Triple X (computeCoupling a bin)
      (fun w Y => ∃ Z, WspAt w true Z ∧ w.ncls = a.ncls ∧ w.lmax = bin.ellMax ∧ w.fkp = a.fkp ∧ Y = Z + X) (fun Y => Y = X) := by
  have hb := h
  obtain ⟨s, n, X1, X2, X3, h1, -, -, -, -, e⟩ := h
  unfold computeCoupling
  by_cases hteb : a.teb = true ∧ ¬(a.spin1 = 0 ∧ a.spin2 ≠ 0)
  · rw [if_pos hteb]
    exact triple_raise rfl
  rw [if_neg hteb, h1]
  have : Take {s} X ({n} + (X1 + (X2 + X3))) := ⟨e⟩
  refine triple_use ?_
  by_cases hl : a.lmaxFields < bin.ellMax
  · rw [if_pos hl]
    exact triple_raise rfl
  rw [if_neg hl]
  refine triple_callEq X 0 (add_zero _).symm (wspNew_spec hb _ _) (fun _ h => h.elim) ?_
  rintro w Y ⟨Z, hw, hn, hm, hfk, -, rfl⟩
  have hw' := hw
  obtain ⟨ws, pc, be, bi, pe, Xu, Xb, w1, w2, w3, w4, w5, hU, hwb, hwm, rfl⟩ := hw
  obtain ⟨o, rs, eu, hrl, rfl⟩ := arrAt_iff.1 hU
  rw [w1, w2, w3]
  refine triple_use (triple_use (triple_new (masterCoefficients_spec _) ?_))
  rintro c Yc ⟨hc, hfit⟩
  refine triple_callUse (Yc + ({ws} + ({o} + (rs : Multiset ℕ)))) ({pc} + ({be} + ({bi} + ({pe} + (Xb + X))))) (by abel)
    (triple_loopUse _ fun l2 hl2 => ?_) fun _ => ?_
  · refine triple_callUse Yc ({ws} + ({o} + (rs : Multiset ℕ))) rfl
      (applyRow_spec ha hc hfit hl2) fun _ => ?_
    refine triple_loopUse _ fun icl hicl => ?_
    rw [eu]
    have hlt : a.ncls * l2 + icl < rs.length := by
      rw [hrl, hn]
      calc a.ncls * l2 + icl < a.ncls * l2 + a.ncls := by omega
        _ = a.ncls * (l2 + 1) := by ring
        _ ≤ a.ncls * (w.lmax + 1) := Nat.mul_le_mul_left _ (by omega)
    exact triple_use (triple_getB hlt (triple_last (triple_useB hlt (triple_pure rfl))))
  · refine triple_call (X := Yc) (calcFree_spec hc) ?_
    rintro ⟨⟩ Y rfl
    refine triple_callUse _ X ?_ (binCoupling_spec hw' (Or.inl rfl)) fun _ => triple_pure ⟨_, hw', hn, hm, hfk, ?_⟩
    · abel
    · abel

theorem triple_pureBind {α β : Type} {P : Multiset ℕ} {Q : β → Multiset ℕ → Prop} {E : Multiset ℕ → Prop} (a : α) {f : α → Mem β}
    (h : Triple P (f a) Q E) : Triple P (pure a >>= f) Q E := h

theorem anisoThread_spec (reuse an1 an2 : Bool) (work : ℕ) :
    Triple 0 (anisoThread reuse an1 an2 work) (fun _ Y => Y = 0) (fun _ => False) := by
  unfold anisoThread
  refine triple_mallocP fun a => ?_
  refine triple_pick (fun e => ?_) (fun e => ?_)
  · subst e
    rw [mem_pure_bind]
    refine triple_new (mallocIf_spec _) fun p1 B hB => ?_
    cases an1 with
    | true =>
      obtain ⟨b, rfl, rfl⟩ := hB
      cases an2 with
      | true =>
        refine triple_pureBind (Ptr.to b) ?_
        refine triple_callUse _ 0 (add_zero _).symm (triple_loopUse _ fun i hi => ?_) fun _ => ?_
        · exact triple_use (triple_use (triple_use (triple_last (triple_use (triple_pure rfl)))))
        · exact triple_free (triple_free (triple_pure (by simp)))
      | false =>
        refine triple_pureBind Ptr.null ?_
        refine triple_callUse _ 0 (add_zero _).symm (triple_loopUse _ fun i hi => ?_) fun _ => ?_
        · exact triple_use (triple_use (triple_use (triple_pure rfl)))
        · exact triple_free (triple_free (triple_pure (by simp)))
    | false =>
      obtain ⟨rfl, rfl⟩ := hB
      cases an2 with
      | true =>
        refine triple_mallocP fun c => ?_
        refine triple_callUse _ 0 (add_zero _).symm (triple_loopUse _ fun i hi => ?_) fun _ => ?_
        · exact triple_use (triple_use (triple_last (triple_use (triple_pure rfl))))
        · exact triple_free (triple_last (triple_free (triple_pure (by simp))))
      | false =>
        refine triple_pureBind Ptr.null ?_
        refine triple_callUse _ 0 (add_zero _).symm (triple_loopUse _ fun i hi => ?_) fun _ => ?_
        · exact triple_use (triple_use (triple_pure rfl))
        · exact triple_free (triple_pure (by simp))
  · subst e
    refine triple_mallocP fun b => triple_new (mallocIf_spec _) fun p1 B hB => ?_
    cases an1 with
    | true =>
      obtain ⟨c, rfl, rfl⟩ := hB
      cases an2 with
      | true =>
        refine triple_mallocP fun d => ?_
        refine triple_callUse _ 0 (add_zero _).symm (triple_loopUse _ fun i hi => ?_) fun _ => ?_
        · exact triple_use (triple_use (triple_use (triple_last (triple_use (triple_pure rfl)))))
        · exact triple_free (triple_free (triple_free (triple_last (triple_free (triple_pure (by simp))))))
      | false =>
        refine triple_pureBind Ptr.null ?_
        refine triple_callUse _ 0 (add_zero _).symm (triple_loopUse _ fun i hi => ?_) fun _ => ?_
        · exact triple_use (triple_use (triple_use (triple_pure rfl)))
        · exact triple_free (triple_free (triple_free (triple_pure (by simp))))
    | false =>
      obtain ⟨rfl, rfl⟩ := hB
      cases an2 with
      | true =>
        refine triple_mallocP fun d => ?_
        refine triple_callUse _ 0 (add_zero _).symm (triple_loopUse _ fun i hi => ?_) fun _ => ?_
        · exact triple_use (triple_use (triple_last (triple_use (triple_pure rfl))))
        · exact triple_free (triple_free (triple_last (triple_free (triple_pure (by simp)))))
      | false =>
        refine triple_pureBind Ptr.null ?_
        refine triple_callUse _ 0 (add_zero _).symm (triple_loopUse _ fun i hi => ?_) fun _ => ?_
        · exact triple_use (triple_use (triple_pure rfl))
        · exact triple_free (triple_free (triple_pure (by simp)))

theorem computeAniso_spec {a : AnisoWspArgs} {bin : Bins} {X : Multiset ℕ} (h : BinsAt bin X) (hmax : a.lmaxFields ≤ bin.ellMax) :
    Triple X (computeAniso a bin)
      (fun w Y => ∃ Z, WspAt w true Z ∧ w.ncls = a.ncls ∧ w.lmax = bin.ellMax ∧ w.fkp = a.fkp ∧ Y = Z + X) (fun Y => Y = X) := by
  have hb := h
  obtain ⟨s, n, X1, X2, X3, h1, -, -, -, -, e⟩ := h
  unfold computeAniso
  rw [h1]
  have : Take {s} X ({n} + (X1 + (X2 + X3))) := ⟨e⟩
  refine triple_use ?_
  by_cases hl : a.lmaxFields < bin.ellMax
  · rw [if_pos hl]
    exact triple_raise rfl
  rw [if_neg hl]
  refine triple_callEq X 0 (add_zero _).symm (wspNew_spec hb _ _) (fun _ h => h.elim) ?_
  rintro w Y ⟨Z, hw, hn, hm, hfk, -, rfl⟩
  have hw' := hw
  obtain ⟨ws, pc, be, bi, pe, Xu, Xb, w1, w2, w3, w4, w5, hU, hwb, hwm, rfl⟩ := hw
  obtain ⟨o, rs, eu, hrl, rfl⟩ := arrAt_iff.1 hU
  rw [w1, w2, w3]
  refine triple_use (triple_use (triple_new (allocArr_spec (B := PtrAt) _ fun _ _ => mallocP_spec) ?_))
  intro pm Yp hp
  obtain ⟨po, ps, rfl, hpl, rfl⟩ := arrAt_iff.1 hp
  refine triple_callUse 0 _ (zero_add _).symm (triple_loopUse _ fun i hi => anisoThread_spec _ _ _ _) fun _ => ?_
  refine triple_callUse ({ws} + ({o} + (rs : Multiset ℕ))) (({po} + (ps : Multiset ℕ)) + ({pc} + ({be} + ({bi} + ({pe} + (Xb + X))))))
    (by abel) (triple_loopUse _ fun r hr => ?_) fun _ => ?_
  · rw [eu]
    have hlt : r < rs.length := by
      rw [hrl, hn]
      exact lt_of_lt_of_le hr (Nat.mul_le_mul_left _ (by omega))
    exact triple_use (triple_getB hlt (triple_last (triple_useB hlt (triple_pure rfl))))
  refine triple_callEq (((List.range 9).map fun i => ({ps.getD i 0} : Multiset ℕ)).sum + {po})
    ({ws} + ({pc} + ({be} + ({bi} + ({pe} + (({o} + (rs : Multiset ℕ)) + (Xb + X)))))))
    (by rw [sum_blocks' hpl]; abel) (triple_loopU _ fun i hi => ?_) (fun _ h => h.elim) ?_
  · exact triple_getB (hpl ▸ hi) (triple_last (triple_free (triple_pure rfl)))
  rintro ⟨⟩ Y rfl
  refine triple_free ?_
  refine triple_callUse _ X ?_ (binCoupling_spec hw' (Or.inl rfl)) fun _ => triple_pure ⟨_, hw', hn, hm, hfk, ?_⟩
  · abel
  · abel

/-! ## Reading workspaces -/

theorem triple_check {β : Type} {P : Multiset ℕ} {Q : β → Multiset ℕ → Prop} {E : Multiset ℕ → Prop} {fail : Option ℕ} {k : ℕ}
    {f : Unit → Mem β} (hE : fail = some k → E P) (h : fail ≠ some k → Triple P (f ()) Q E) :
    Triple P (checkpoint fail k >>= f) Q E := by
  refine triple_whenC (fun e => ?_) (fun e => h (by simpa using e))
  have hr : (raiseErr (α := Unit) >>= f) = raiseErr := rfl
  rw [hr]
  exact triple_raise (hE (by simpa using e))

/-- The file is intact: the sums of weights are positive and none of the nine checks fails. -/
def WspFile.Good (f : WspFile) : Prop := (∀ k < 9, f.fail ≠ some k) ∧ ∀ i < f.nBands, f.good i = true

theorem UnbAt.card {n : ℕ} {a : PArr Ptr} {u : Bool} {X : Multiset ℕ} (h : UnbAt n a u X) : X.card = if u then n + 1 else 0 := by
  cases u
  · rw [h.2]; rfl
  · obtain ⟨o, bs, -, hl, rfl⟩ := arrAt_iff.1 h
    simp [hl, add_comm]

theorem wspRead_spec (f : WspFile) (u : Bool) (hm : f.ellMax = f.lmax) :
    Triple 0 (wspRead f u)
      (fun w Y => WspAt w u Y ∧ w.fkp = f.fkp ∧ w.bin.nBands = f.nBands ∧ w.ncls = f.ncls ∧ w.lmax = f.lmax ∧ f.Good)
      (fun Y => Y.card = f.lost u ∧ ¬f.Good) := by
  have hg : ∀ {k}, k < 9 → f.fail = some k → ¬f.Good := fun hk e hg => hg.1 _ hk e
  unfold wspRead
  refine triple_mallocP fun s => triple_check (fun e => ⟨by simp [WspFile.lost, e], hg (by omega) e⟩) fun n0 => ?_
  refine triple_new (Q1 := fun a X => UnbAt (f.ncls * (f.lmax + 1)) a u X) ?_ fun unb Xu hU => ?_
  · cases u
    · exact triple_pure ⟨rfl, rfl⟩
    · exact allocArr_spec (B := PtrAt) _ fun _ _ => mallocP_spec
  have hX := hU.card
  refine triple_check (fun e => ⟨by simp [WspFile.lost, e, hX]; omega, hg (by omega) e⟩) fun n1 => ?_
  refine triple_check (fun e => ⟨by simp [WspFile.lost, e, hX]; omega, hg (by omega) e⟩) fun n2 => triple_mallocP fun be => ?_
  refine triple_check (fun e => ⟨by simp [WspFile.lost, e, hX]; omega, hg (by omega) e⟩) fun n3 => ?_
  refine triple_check (fun e => ⟨by simp [WspFile.lost, e, hX]; omega, hg (by omega) e⟩) fun n4 => triple_mallocP fun pc => ?_
  refine triple_check (fun e => ⟨by simp [WspFile.lost, e, hX]; omega, hg (by omega) e⟩) fun n5 => ?_
  refine triple_mallocP fun b1 => triple_mallocP fun b2 => triple_mallocP fun b3 => triple_mallocP fun b4 =>
    triple_newE (binsCreate_spec _ _ _) ?_ ?_
  · rintro Y ⟨hY, i, hi, hb⟩
    refine ⟨?_, fun hg => by have := hg.2 i hi; rw [hb] at this; simp at this⟩
    have hex : ∃ i < f.nBands, f.good i = false := ⟨i, hi, hb⟩
    simp only [WspFile.lost, n0, n1, n2, n3, n4, n5, hex, or_true, if_true, if_false, or_self, Multiset.card_add, hY, hX,
      Multiset.card_singleton, Multiset.card_zero]
    omega
  · rintro b Xb ⟨hb, hnb, hem, hgood⟩
    have hno : ¬∃ i < f.nBands, f.good i = false := by
      rintro ⟨i, hi, h⟩
      rw [hgood i hi] at h
      simp at h
    have hXb : Xb.card = 5 + 3 * f.nBands := by
      obtain ⟨s', n', X1, X2, X3, -, -, h3, h4, h5, rfl⟩ := hb
      obtain ⟨_, es, -, l1, rfl⟩ := arrAt_iff.1 h3
      obtain ⟨_, ws, -, l2, rfl⟩ := arrAt_iff.1 h4
      obtain ⟨_, fs, -, l3, rfl⟩ := arrAt_iff.1 h5
      simp [l1, l2, l3, hnb]
      omega
    refine triple_check (fun e => ⟨?_, hg (by omega) e⟩) fun n6 => ?_
    · simp [WspFile.lost, e, hX, hXb]
      omega
    refine triple_free (triple_free (triple_free (triple_free (triple_check (fun e => ⟨?_, hg (by omega) e⟩) fun n7 => ?_))))
    · simp [WspFile.lost, e, hX, hXb, hno]
      omega
    refine triple_mallocP fun fl => triple_mallocP fun bi => triple_free (triple_mallocP fun pi => triple_mallocP fun pe =>
      triple_free (triple_check (fun e => ⟨?_, hg (by omega) e⟩) fun n8 => triple_pure ?_))
    · simp [WspFile.lost, e, hX, hXb, hno]
      omega
    refine ⟨⟨s, pc, be, bi, pe, Xu, Xb, rfl, rfl, rfl, rfl, rfl, hU, hb, hem.trans hm, ?_⟩, rfl, hnb, rfl, rfl, ?_, hgood⟩
    · abel
    · intro k hk
      have : k = 0 ∨ k = 1 ∨ k = 2 ∨ k = 3 ∨ k = 4 ∨ k = 5 ∨ k = 6 ∨ k = 7 ∨ k = 8 := by omega
      rcases this with rfl | rfl | rfl | rfl | rfl | rfl | rfl | rfl | rfl <;> assumption

/-! ## Covariance workspaces -/

/-- The blocks of a covariance workspace. -/
def CovAt (cw : Cov) (X : Multiset ℕ) : Prop :=
  ∃ s A B, cw.self = .to s ∧ XiAt cw.lmax cw.xi00a A ∧ XiAt cw.lmax cw.xi00b B ∧
    if cw.spin0 then
      X = {s} + (A + B) ∧ cw.xi02a = cw.xi00a ∧ cw.xi02b = cw.xi00b ∧ cw.xi22pa = cw.xi00a ∧ cw.xi22pb = cw.xi00b ∧
        cw.xi22ma = cw.xi00a ∧ cw.xi22mb = cw.xi00b
    else ∃ C D F G H I, XiAt cw.lmax cw.xi02a C ∧ XiAt cw.lmax cw.xi02b D ∧ XiAt cw.lmax cw.xi22pa F ∧
      XiAt cw.lmax cw.xi22pb G ∧ XiAt cw.lmax cw.xi22ma H ∧ XiAt cw.lmax cw.xi22mb I ∧
      X = {s} + (A + (B + (C + (D + (F + (G + (H + I)))))))

/-- The number of tables. -/
def Cov.tables (cw : Cov) : ℕ := if cw.spin0 then 2 else 8

theorem covFree_spec {cw : Cov} {X : Multiset ℕ} (h : CovAt cw X) :
    Triple X (covFree cw) (fun _ Y => Y.card = cw.tables) (fun _ => False) := by
  obtain ⟨self, lmax, spin0, x1, x2, x3, x4, x5, x6, x7, x8⟩ := cw
  obtain ⟨s, A, B, h1, hA, hB, hr⟩ := h
  dsimp only at h1 hA hB hr
  obtain ⟨o1, b1, rfl, l1, rfl⟩ := arrAt_iff.1 hA
  obtain ⟨o2, b2, rfl, l2, rfl⟩ := arrAt_iff.1 hB
  subst h1
  unfold covFree Cov.tables
  dsimp only
  cases spin0
  · obtain ⟨C, D, F, G, H, I, h3, h4, h5, h6, h7, h8, rfl⟩ := hr
    obtain ⟨o3, b3, rfl, l3, rfl⟩ := arrAt_iff.1 h3
    obtain ⟨o4, b4, rfl, l4, rfl⟩ := arrAt_iff.1 h4
    obtain ⟨o5, b5, rfl, l5, rfl⟩ := arrAt_iff.1 h5
    obtain ⟨o6, b6, rfl, l6, rfl⟩ := arrAt_iff.1 h6
    obtain ⟨o7, b7, rfl, l7, rfl⟩ := arrAt_iff.1 h7
    obtain ⟨o8, b8, rfl, l8, rfl⟩ := arrAt_iff.1 h8
    refine triple_use ?_
    refine triple_callEq (((List.range (lmax + 1)).map fun i => ({b1.getD i 0} + ({b2.getD i 0} + ({b3.getD i 0} +
      ({b4.getD i 0} + ({b5.getD i 0} + ({b6.getD i 0} + ({b7.getD i 0} + {b8.getD i 0})))))))).sum +
      ({s} + ({o1} + ({o2} + ({o3} + ({o4} + ({o5} + ({o6} + ({o7} + {o8}))))))))) 0 ?_ (triple_loopU _ fun i hi => ?_)
      (fun _ h => h.elim) ?_
    · simp only [sum_map_add2, sum_blocks' l1, sum_blocks' l2, sum_blocks' l3, sum_blocks' l4, sum_blocks' l5, sum_blocks' l6,
        sum_blocks' l7, sum_blocks' l8]
      abel
    · exact triple_freeE (l1 ▸ hi) (triple_freeE (l2 ▸ hi) (triple_freeE (l3 ▸ hi) (triple_freeE (l4 ▸ hi)
        (triple_freeE (l5 ▸ hi) (triple_freeE (l6 ▸ hi) (triple_freeE (l7 ▸ hi) (triple_last (triple_freeE (l8 ▸ hi)
        (triple_pure rfl)))))))))
    · rintro ⟨⟩ Y rfl
      exact triple_last (triple_free (triple_pure rfl))
  · obtain ⟨rfl, -⟩ := hr
    refine triple_use ?_
    refine triple_callEq (((List.range (lmax + 1)).map fun i => ({b1.getD i 0} + {b2.getD i 0})).sum +
      ({s} + ({o1} + {o2}))) 0 ?_ (triple_loopU _ fun i hi => ?_)
      (fun _ h => h.elim) ?_
    · simp only [sum_map_add2, sum_blocks' l1, sum_blocks' l2]
      abel
    · exact triple_freeE (l1 ▸ hi) (triple_freeE (l2 ▸ hi) (triple_pure rfl))
    · rintro ⟨⟩ Y rfl
      exact triple_last (triple_free (triple_pure rfl))

theorem arrAt_two {α : Type} {B : α → Multiset ℕ → Prop} {a : PArr α} {X : Multiset ℕ} (h : ArrAt B 2 a X) :
    ∃ o x y X1 X2, a = ⟨.to o, [x, y]⟩ ∧ B x X1 ∧ B y X2 ∧ X = {o} + (X1 + X2) := by
  obtain ⟨o, l, Xs, rfl, hl, hF, rfl⟩ := h
  obtain ⟨x, y, rfl⟩ := List.length_eq_two.1 hl
  cases hF with
  | cons h1 hF =>
    cases hF with
    | cons h2 hF =>
      cases hF
      exact ⟨o, x, y, _, _, rfl, h1, h2, by simp⟩

theorem arrAt_one {α : Type} {B : α → Multiset ℕ → Prop} {a : PArr α} {X : Multiset ℕ} (h : ArrAt B 1 a X) :
    ∃ o x X1, a = ⟨.to o, [x]⟩ ∧ B x X1 ∧ X = {o} + X1 := by
  obtain ⟨o, l, Xs, rfl, hl, hF, rfl⟩ := h
  obtain ⟨x, rfl⟩ := List.length_eq_one_iff.1 hl
  cases hF with
  | cons h1 hF =>
    cases hF
    exact ⟨o, x, _, rfl, h1, by simp⟩

section rules
variable {α β : Type} {P P' P'' : Multiset ℕ} {Q : β → Multiset ℕ → Prop} {E : Multiset ℕ → Prop}

theorem triple_get0 [Inhabited α] {o : ℕ} {x : α} {l : List α} {f : α → Mem β} [Take {o} P P'] (h : Triple P (f x) Q E) :
    Triple P (PArr.get ⟨.to o, x :: l⟩ 0 >>= f) Q E := triple_get (Nat.zero_lt_succ _) h

theorem triple_get1 [Inhabited α] {o : ℕ} {x y : α} {l : List α} {f : α → Mem β} [Take {o} P P'] (h : Triple P (f y) Q E) :
    Triple P (PArr.get ⟨.to o, x :: y :: l⟩ 1 >>= f) Q E := triple_get (l := x :: y :: l) (by simp) h

theorem triple_sub00 {o q : ℕ} {x : PArr Ptr} {l : List (PArr (PArr Ptr))} {l' : List (PArr Ptr)} {f : PArr Ptr → Mem β}
    [Take {o} P P'] [Take {q} P P''] (h : Triple P (f x) Q E) :
    Triple P (sub0 ⟨.to o, ⟨.to q, x :: l'⟩ :: l⟩ 0 >>= f) Q E := by
  unfold sub0
  rw [mem_assoc]
  exact triple_get0 (triple_get0 h)

theorem triple_sub01 {o q : ℕ} {x : PArr Ptr} {y : PArr (PArr Ptr)} {l : List (PArr (PArr Ptr))} {l' : List (PArr Ptr)}
    {f : PArr Ptr → Mem β} [Take {o} P P'] [Take {q} P P''] (h : Triple P (f x) Q E) :
    Triple P (sub0 ⟨.to o, y :: ⟨.to q, x :: l'⟩ :: l⟩ 1 >>= f) Q E := by
  unfold sub0
  rw [mem_assoc]
  exact triple_get1 (triple_get0 h)

theorem triple_freeSub0 {o q : ℕ} {l : List (PArr (PArr Ptr))} {l' : List (PArr Ptr)} {f : Unit → Mem β}
    [Take {o} P P'] [Take {q} P P''] (h : Triple P'' (f ()) Q E) :
    Triple P (freeSub ⟨.to o, ⟨.to q, l'⟩ :: l⟩ 0 >>= f) Q E := by
  unfold freeSub
  rw [mem_assoc]
  exact triple_get0 (triple_free h)

theorem triple_freeSub1 {o q : ℕ} {y : PArr (PArr Ptr)} {l : List (PArr (PArr Ptr))} {l' : List (PArr Ptr)} {f : Unit → Mem β}
    [Take {o} P P'] [Take {q} P P''] (h : Triple P'' (f ()) Q E) :
    Triple P (freeSub ⟨.to o, y :: ⟨.to q, l'⟩ :: l⟩ 1 >>= f) Q E := by
  unfold freeSub
  rw [mem_assoc]
  exact triple_get1 (triple_free h)

end rules

theorem covInit_spec (lmax : ℕ) (spin0 toeplitz : Bool) (threads : ℕ) (work : ℕ → ℕ) :
    Triple 0 (covInit lmax spin0 toeplitz threads work)
      (fun cw Y => ∃ Z lost, CovAt cw Z ∧ cw.spin0 = spin0 ∧ cw.lmax = lmax ∧ Y = {lost} + Z) (fun _ => False) := by
  unfold covInit
  refine triple_mallocP fun s => triple_new (allocArr_spec (B := PtrAt) _ fun _ _ => mallocP_spec) fun clm Xc hclm => ?_
  obtain ⟨mo, p, q, M1, M2, rfl, ⟨m1, rfl, rfl⟩, ⟨m2, rfl, rfl⟩, rfl⟩ := arrAt_two hclm
  cases spin0
  · refine triple_new (m := pick false _ _) (masterCoefficients_spec ⟨lmax, 2, 0, 2, false, true, toeplitz, threads, work⟩) ?_
    rintro ⟨self, f00, f0s, fss, npcl, np0, nps, lm, x00, x0s, xpp, xmm, lf⟩ Y ⟨⟨cs, clf, A, B, C, D, c1, c2, hA, hB, hC, hD, rfl⟩, hf⟩
    obtain ⟨g1, g2, g3, g4, g5, g6, g7⟩ := hf
    dsimp only at c1 c2 hA hB hC hD g1 g2 g3 g4 g5 g6 g7
    rw [g1, g7, g4] at hA
    rw [g2, g7, g4, g5] at hB
    rw [g3, g7, g4, g6] at hC hD
    subst c1 c2
    obtain ⟨ao, a1, a2, A1, A2, rfl, hA1, hA2, rfl⟩ := arrAt_two hA
    obtain ⟨bo, y1, y2, B1, B2, rfl, hB1, hB2, rfl⟩ := arrAt_two hB
    obtain ⟨co, z1, z2, C1, C2, rfl, hC1, hC2, rfl⟩ := arrAt_two hC
    obtain ⟨do', t1, t2, D1, D2, rfl, hD1, hD2, rfl⟩ := arrAt_two hD
    obtain ⟨bo1, u1, U1, rfl, hU1, rfl⟩ := arrAt_one hB1
    obtain ⟨bo2, u2, U2, rfl, hU2, rfl⟩ := arrAt_one hB2
    obtain ⟨co1, v1, V1, rfl, hV1, rfl⟩ := arrAt_one hC1
    obtain ⟨co2, v2, V2, rfl, hV2, rfl⟩ := arrAt_one hC2
    obtain ⟨do1, w1, W1, rfl, hW1, rfl⟩ := arrAt_one hD1
    obtain ⟨do2, w2, W2, rfl, hW2, rfl⟩ := arrAt_one hD2
    dsimp only
    refine triple_use (triple_get0 (triple_get1 ?_))
    refine triple_pick (fun e => by simp at e) (fun _ => ?_)
    simp only [mem_assoc, mem_pure_bind]
    refine triple_sub00 (triple_sub01 (triple_sub00 (triple_sub01 (triple_sub00 (triple_sub01 ?_)))))
    refine triple_freeSub0 (triple_freeSub1 (triple_free ?_))
    refine triple_freeSub0 (triple_freeSub1 (triple_free ?_))
    refine triple_freeSub0 (triple_freeSub1 (triple_free ?_))
    refine triple_freeM (triple_free (triple_get0 (triple_free (triple_get1 (triple_free (triple_free (triple_pure ?_)))))))
    refine ⟨_, clf, ⟨s, A1, A2, rfl, hA1, hA2, U1, U2, V1, V2, W1, W2, hU1, hU2, hV1, hV2, hW1, hW2, rfl⟩, rfl, rfl, ?_⟩
    abel
  · refine triple_new (m := pick true _ _) (masterCoefficients_spec ⟨lmax, 2, 0, 0, false, false, toeplitz, threads, work⟩) ?_
    rintro ⟨self, f00, f0s, fss, npcl, np0, nps, lm, x00, x0s, xpp, xmm, lf⟩ Y ⟨⟨cs, clf, A, B, C, D, c1, c2, hA, hB, hC, hD, rfl⟩, hf⟩
    obtain ⟨g1, g2, g3, g4, g5, g6, g7⟩ := hf
    dsimp only at c1 c2 hA hB hC hD g1 g2 g3 g4 g5 g6 g7
    rw [g1, g7, g4] at hA
    rw [g2] at hB
    rw [g3] at hC hD
    subst c1 c2
    obtain ⟨ao, a1, a2, A1, A2, rfl, hA1, hA2, rfl⟩ := arrAt_two hA
    obtain ⟨-, rfl⟩ := hB
    obtain ⟨-, rfl⟩ := hC
    obtain ⟨-, rfl⟩ := hD
    dsimp only
    refine triple_use (triple_get0 (triple_get1 ?_))
    refine triple_pick (fun _ => ?_) (fun e => by simp at e)
    rw [mem_pure_bind]
    refine triple_freeM (triple_free (triple_get0 (triple_free (triple_get1 (triple_free (triple_free (triple_pure ?_)))))))
    refine ⟨_, clf, ⟨s, A1, A2, rfl, hA1, hA2, rfl, rfl, rfl, rfl, rfl, rfl, rfl⟩, rfl, rfl, ?_⟩
    abel

theorem XiAt.card {lmax : ℕ} {a : PArr Ptr} {X : Multiset ℕ} (h : XiAt lmax a X) : X.card = lmax + 2 := by
  obtain ⟨o, bs, -, hl, rfl⟩ := arrAt_iff.1 h
  simp [hl]

theorem coeffsRead_spec (fail : Option ℕ) (k lmax : ℕ) :
    Triple 0 (coeffsRead fail k (lmax + 1)) (XiAt lmax)
      (fun Y => (fail = some k ∧ Y.card = 0) ∨ (fail = some (k + 1) ∧ Y.card = lmax + 2)) := by
  unfold coeffsRead
  refine triple_check (fun e => Or.inl ⟨e, rfl⟩) fun _ => triple_mallocP fun m =>
    triple_new (allocArr_spec (B := PtrAt) _ fun _ _ => mallocP_spec) fun a X hX => triple_free (triple_check (fun e => ?_) fun _ =>
      triple_pure ?_)
  · exact Or.inr ⟨e, by rw [add_zero]; exact XiAt.card hX⟩
  · rw [add_zero]
    exact hX

theorem covRead_spec (f : CovFile) (force : Bool) :
    Triple 0 (covRead f force) (fun cw Y => CovAt cw Y ∧ cw.spin0 = (force || f.spin0) ∧ cw.lmax = f.lmax)
      (fun Y => Y.card = f.lost ∧ f.fail ≠ none) := by
  unfold covRead
  have hr : ∀ n P, P.card = 1 + n * (f.lmax + 2) → ∀ Y : Multiset ℕ, ((f.fail = some (2 + 2 * n) ∧ Y.card = 0) ∨
      (f.fail = some (2 + 2 * n + 1) ∧ Y.card = f.lmax + 2)) → (Y + P).card = f.lost ∧ f.fail ≠ none := by
    rintro n P hP Y (⟨e, hY⟩ | ⟨e, hY⟩)
    · refine ⟨?_, by rw [e]; simp⟩
      rw [Multiset.card_add, hY, hP, CovFile.lost, e]
      dsimp only
      rw [show (2 + 2 * n - 1) / 2 = n by omega, zero_add]
    · refine ⟨?_, by rw [e]; simp⟩
      rw [Multiset.card_add, hY, hP, CovFile.lost, e]
      dsimp only
      rw [show (2 + 2 * n + 1 - 1) / 2 = n + 1 by omega]
      ring
  refine triple_mallocP fun s => triple_check (fun e => ⟨by simp [CovFile.lost, e], by rw [e]; simp⟩) fun _ =>
    triple_check (fun e => ⟨by simp [CovFile.lost, e], by rw [e]; simp⟩) fun _ => ?_
  refine triple_newE (coeffsRead_spec _ 2 _) (hr 0 _ (by simp)) fun a A hA => ?_
  have cA := hA.card
  refine triple_newE (coeffsRead_spec _ 4 _) (hr 1 _ (by simp [cA]; omega)) fun b B hB => ?_
  have cB := hB.card
  refine triple_last (triple_pick (fun e => ?_) (fun e => ?_))
  · refine triple_pure ⟨⟨s, A, B, rfl, hA, hB, ?_, rfl, rfl, rfl, rfl, rfl, rfl⟩, e.symm, rfl⟩
    abel
  · simp only [mem_assoc, mem_pure_bind]
    refine triple_newE (coeffsRead_spec _ 6 _) (hr 2 _ (by simp [cA, cB]; omega)) fun c C hC => ?_
    have cC := hC.card
    refine triple_newE (coeffsRead_spec _ 8 _) (hr 3 _ (by simp [cA, cB, cC]; omega)) fun d D hD => ?_
    have cD := hD.card
    refine triple_newE (coeffsRead_spec _ 10 _) (hr 4 _ (by simp [cA, cB, cC, cD]; omega)) fun f F hF => ?_
    have cF := hF.card
    refine triple_newE (coeffsRead_spec _ 12 _) (hr 5 _ (by simp [cA, cB, cC, cD, cF]; omega)) fun g G hG => ?_
    have cG := hG.card
    refine triple_newE (coeffsRead_spec _ 14 _) (hr 6 _ (by simp [cA, cB, cC, cD, cF, cG]; omega)) fun h H hH => ?_
    have cH := hH.card
    refine triple_newE (coeffsRead_spec _ 16 _) (hr 7 _ (by simp [cA, cB, cC, cD, cF, cG, cH]; omega)) fun i I hI => ?_
    refine triple_pure ⟨⟨s, A, B, rfl, hA, hB, C, D, F, G, H, I, hC, hD, hF, hG, hH, hI, ?_⟩, e.symm, rfl⟩
    abel

end Mem

end NaMaster
