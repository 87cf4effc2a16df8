import Verif.Mat.Storage
import Mathlib.Algebra.BigOperators.Group.List.Basic
import Mathlib.Algebra.Order.BigOperators.Group.List
import Mathlib.Tactic.Ring
import Mathlib.Tactic.IntervalCases

/-!
# Lemmas for PropsStore
-/

namespace Verif.Mat

/-- Row-major position: the last index varies fastest. -/
def rowMajor : List Nat → List Nat → Nat
  | _ :: ds, i :: is => i * ds.prod + rowMajor ds is
  | _, _ => 0

theorem offset_aux (N : Nat) : ∀ (ds pre is : List Nat), ds.length = is.length →
    N = pre.length + is.length →
    ds.reverse.zipIdx.foldlM (fun (s : Nat × Nat) (p : Nat × Nat) =>
      ((pre ++ is)[N - 1 - p.2]?).map (fun i => (s.1 + i * s.2, s.2 * p.1))) (0, 1)
      = some (rowMajor ds is, ds.prod)
  | [], _, [], _, _ => rfl
  | [], _, _ :: _, h, _ => by simp at h
  | _ :: _, _, [], h, _ => by simp at h
  | d :: ds, pre, i :: is, h, hN => by
    have hl : ds.length = is.length := by simpa using h
    have ih := offset_aux N ds (pre ++ [i]) is hl (by simp at hN ⊢; omega)
    simp only [List.append_assoc, List.cons_append, List.nil_append] at ih
    rw [List.reverse_cons, List.zipIdx_append, List.foldlM_append, ih]
    have hidx : N - 1 - ds.length = pre.length := by simp at hN; omega
    simp [hidx, rowMajor, Nat.add_comm, Nat.mul_comm]

theorem offset_eq {shape idx : List Nat} (h : shape.length = idx.length) :
    offset shape idx = some (rowMajor shape idx) := by
  unfold offset
  have := offset_aux shape.length shape [] idx h (by simp [h])
  rw [List.nil_append] at this
  rw [this]; rfl

theorem rowMajor_lt : ∀ {shape idx : List Nat}, List.Forall₂ (· < ·) idx shape →
    rowMajor shape idx < shape.prod
  | [], [], _ => by simp [rowMajor]
  | d :: ds, i :: is, h => by
    cases h with
    | cons h1 h2 =>
      have ih := rowMajor_lt h2
      simp only [rowMajor, List.prod_cons]
      calc i * ds.prod + rowMajor ds is < i * ds.prod + ds.prod := by omega
        _ = (i + 1) * ds.prod := by ring
        _ ≤ d * ds.prod := Nat.mul_le_mul_right _ h1

theorem rowMajor_inj : ∀ {shape idx idx' : List Nat}, List.Forall₂ (· < ·) idx shape →
    List.Forall₂ (· < ·) idx' shape → rowMajor shape idx = rowMajor shape idx' → idx = idx'
  | [], [], [], _, _, _ => rfl
  | d :: ds, i :: is, i' :: is', h, h', e => by
    cases h with
    | cons h1 h2 =>
      cases h' with
      | cons h1' h2' =>
        have l1 := rowMajor_lt h2
        have l2 := rowMajor_lt h2'
        simp only [rowMajor] at e
        have hpos : 0 < ds.prod := by omega
        have hi : i = i' := by
          have a1 : (i * ds.prod + rowMajor ds is) / ds.prod = i := by
            rw [Nat.mul_comm, Nat.mul_add_div hpos, Nat.div_eq_of_lt l1, Nat.add_zero]
          have a2 : (i' * ds.prod + rowMajor ds is') / ds.prod = i' := by
            rw [Nat.mul_comm, Nat.mul_add_div hpos, Nat.div_eq_of_lt l2, Nat.add_zero]
          rw [← a1, e, a2]
        subst hi
        rw [rowMajor_inj h2 h2' (by omega)]

theorem rowMajor_surj : ∀ (shape : List Nat) (o : Nat), o < shape.prod →
    ∃ idx, List.Forall₂ (· < ·) idx shape ∧ rowMajor shape idx = o
  | [], o, h => ⟨[], List.Forall₂.nil, by simp at h; simp [rowMajor, h]⟩
  | d :: ds, o, h => by
    rw [List.prod_cons] at h
    have hpos : 0 < ds.prod := by
      rcases Nat.eq_zero_or_pos ds.prod with h0 | h0
      · rw [h0] at h; omega
      · exact h0
    obtain ⟨is, h1, h2⟩ := rowMajor_surj ds (o % ds.prod) (Nat.mod_lt _ hpos)
    refine ⟨o / ds.prod :: is, List.Forall₂.cons (Nat.div_lt_of_lt_mul (by rwa [Nat.mul_comm])) h1, ?_⟩
    simp only [rowMajor, h2]
    rw [Nat.mul_comm]; exact Nat.div_add_mod _ _

/-- Element `(i, j)` of a concatenation of equally long blocks. -/
theorem flatMap_block {α : Type*} {b : Nat} : ∀ {d : Nat} (f : Fin d → List α), (∀ i, (f i).length = b) →
    ∀ (i : Fin d) (j : Nat), j < b → ((List.finRange d).flatMap f)[i.1 * b + j]? = (f i)[j]?
  | 0, _, _, i, _, _ => i.elim0
  | d + 1, f, hf, i, j, hj => by
    rw [List.finRange_succ, List.flatMap_cons, List.flatMap_map]
    refine Fin.cases ?_ (fun i => ?_) i
    · rw [List.getElem?_append_left (by simp [hf, hj])]; simp
    · rw [List.getElem?_append_right (by
        rw [hf]; simp only [Fin.val_succ, Nat.add_mul]; omega)]
      rw [hf]
      have : (i.succ : Fin (d + 1)).1 * b + j - b = i.1 * b + j := by
        simp only [Fin.val_succ, Nat.add_mul]; omega
      rw [this]
      exact flatMap_block (fun i => f i.succ) (fun i => hf _) i j hj

theorem flatMap_length {α : Type*} {b d : Nat} (f : Fin d → List α) (hf : ∀ i, (f i).length = b) :
    ((List.finRange d).flatMap f).length = d * b := by
  rw [List.length_flatMap]
  have : (List.map (fun i => (f i).length) (List.finRange d)) = List.replicate d b := by
    simp only [hf]; simp
  rw [this]; simp

/-! ## Codecs -/

variable {T : Type*}

/-- Decoding succeeds only on encodings: together with `Good`, the codec is a bijection. -/
def Codec.Exact (c : Codec T) : Prop := ∀ bs v rest, c.dec bs = some (v, rest) → bs = c.enc v ++ rest

theorem decodeRow_spec {c : Codec T} (hc : c.Good) : ∀ {n : Nat} (v : Fin n → T) (rest : List UInt8),
    decodeRow c n ((List.finRange n).flatMap (fun k => c.enc (v k)) ++ rest) = some (v, rest)
  | 0, v, rest => by simp [decodeRow, List.finRange_zero]; funext i; exact i.elim0
  | n + 1, v, rest => by
    rw [List.finRange_succ, List.flatMap_cons, List.flatMap_map, List.append_assoc, decodeRow, hc]
    simp only
    rw [decodeRow_spec hc (fun k => v k.succ) rest]
    simp only [Option.some.injEq, Prod.mk.injEq, and_true]
    exact Fin.cons_self_tail v

theorem decodeRow_exact {c : Codec T} (hc : c.Exact) : ∀ {n : Nat} {bs : List UInt8} {v : Fin n → T}
    {rest : List UInt8}, decodeRow c n bs = some (v, rest) →
    bs = (List.finRange n).flatMap (fun k => c.enc (v k)) ++ rest
  | 0, bs, v, rest, h => by simp [decodeRow] at h; simp [List.finRange_zero, h.2]
  | n + 1, bs, v, rest, h => by
    rw [decodeRow] at h
    split at h
    · cases h
    · rename_i x bs1 h1
      split at h
      · cases h
      · rename_i row bs2 h2
        simp only [Option.some.injEq, Prod.mk.injEq] at h
        obtain ⟨rfl, rfl⟩ := h
        rw [List.finRange_succ, List.flatMap_cons, List.flatMap_map, hc _ _ _ h1, decodeRow_exact hc h2]
        simp [List.append_assoc]

theorem decodeMat_spec {c : Codec T} (hc : c.Good) {n : Nat} : ∀ {m : Nat} (a : Mat T m n)
    (rest : List UInt8), decodeMat c n m (encodeMat c a ++ rest) = some (a, rest)
  | 0, v, rest => by simp [decodeMat, encodeMat, List.finRange_zero]; funext i; exact i.elim0
  | m + 1, a, rest => by
    unfold encodeMat
    rw [List.finRange_succ, List.flatMap_cons, List.flatMap_map, List.append_assoc, decodeMat,
      decodeRow_spec hc]
    simp only
    rw [show (List.finRange m).flatMap (fun a_1 => (List.finRange n).flatMap fun k => c.enc (a a_1.succ k))
      = encodeMat c (fun r => a r.succ) from rfl, decodeMat_spec hc (fun r => a r.succ) rest]
    simp only [Option.some.injEq, Prod.mk.injEq, and_true]
    exact Fin.cons_self_tail a

theorem decodeMat_exact {c : Codec T} (hc : c.Exact) {n : Nat} : ∀ {m : Nat} {bs : List UInt8}
    {a : Mat T m n} {rest : List UInt8}, decodeMat c n m bs = some (a, rest) → bs = encodeMat c a ++ rest
  | 0, bs, v, rest, h => by simp [decodeMat] at h; simp [encodeMat, List.finRange_zero, h.2]
  | m + 1, bs, a, rest, h => by
    rw [decodeMat] at h
    split at h
    · cases h
    · rename_i x bs1 h1
      split at h
      · cases h
      · rename_i row bs2 h2
        simp only [Option.some.injEq, Prod.mk.injEq] at h
        obtain ⟨rfl, rfl⟩ := h
        unfold encodeMat
        rw [List.finRange_succ, List.flatMap_cons, List.flatMap_map, decodeRow_exact hc h1,
          decodeMat_exact hc h2]
        simp [List.append_assoc, encodeMat]

theorem f64Codec_good : f64Codec.Good := by
  intro v rest
  have hr : List.range 8 = [0, 1, 2, 3, 4, 5, 6, 7] := by decide
  simp only [f64Codec, hr, List.map_cons, List.map_nil, List.cons_append, List.nil_append,
    Option.some.injEq, Prod.mk.injEq, and_true]
  apply BitVec.eq_of_getLsbD_eq
  intro i hi
  simp only [BitVec.getLsbD_append]
  interval_cases i <;> simp

theorem f64Codec_exact : f64Codec.Exact := by
  intro bs v rest h
  have hr : List.range 8 = [0, 1, 2, 3, 4, 5, 6, 7] := by decide
  unfold f64Codec at h
  simp only at h
  split at h
  · rename_i a0 a1 a2 a3 a4 a5 a6 a7 rest'
    simp only [Option.some.injEq, Prod.mk.injEq] at h
    obtain ⟨rfl, rfl⟩ := h
    simp only [f64Codec, hr, List.map_cons, List.map_nil, List.cons_append, List.nil_append,
      List.cons.injEq, and_true]
    refine ⟨?_, ?_, ?_, ?_, ?_, ?_, ?_, ?_⟩ <;>
    · apply UInt8.eq_of_toBitVec_eq
      apply BitVec.eq_of_getLsbD_eq
      intro i hi
      simp only [BitVec.getLsbD_setWidth, BitVec.getLsbD_ushiftRight, BitVec.getLsbD_append]
      interval_cases i <;> simp
  · cases h

/-! ## serde -/

theorem visitN_spec {V β : Type*} {de : V → Option β} {ser : β → V} (h : ∀ b, de (ser b) = some b) :
    ∀ {n : Nat} (v : Fin n → β) (rest : List V),
      visitN de n ((List.finRange n).map (fun i => ser (v i)) ++ rest) = some (v, rest)
  | 0, v, rest => by simp [visitN, List.finRange_zero]; funext i; exact i.elim0
  | n + 1, v, rest => by
    rw [List.finRange_succ, List.map_cons, List.map_map, List.cons_append, visitN, h]
    simp only [Function.comp_def]
    rw [visitN_spec h (fun k => v k.succ) rest]
    simp only [Option.some.injEq, Prod.mk.injEq, and_true]
    exact Fin.cons_self_tail v

theorem visitN_exact {V β : Type*} {de : V → Option β} {ser : β → V} (h : ∀ x b, de x = some b → x = ser b) :
    ∀ {n : Nat} {xs : List V} {v : Fin n → β} {rest : List V}, visitN de n xs = some (v, rest) →
      xs = (List.finRange n).map (fun i => ser (v i)) ++ rest
  | 0, xs, v, rest, e => by simp [visitN] at e; simp [List.finRange_zero, e.2]
  | n + 1, [], v, rest, e => by simp [visitN] at e
  | n + 1, x :: xs, v, rest, e => by
    rw [visitN] at e
    split at e
    · cases e
    · rename_i b h1
      split at e
      · cases e
      · rename_i row xs2 h2
        simp only [Option.some.injEq, Prod.mk.injEq] at e
        obtain ⟨rfl, rfl⟩ := e
        rw [List.finRange_succ, List.map_cons, List.map_map, h _ _ h1, visitN_exact h h2]
        simp [Function.comp_def]

theorem scalar_iff (x : SVal T) (b : T) : x.scalar? = some b ↔ x = .leaf b := by
  cases x with
  | leaf v => simp [SVal.scalar?]
  | seq l => simp [SVal.scalar?]

theorem checkEnd_iff {V β : Type*} {r : Option (β × List V)} {b : β} :
    checkEnd r = some b ↔ r = some (b, []) := by
  unfold checkEnd
  split
  · simp
  · rename_i h
    constructor
    · intro h'; cases h'
    · intro h'; exact absurd h' (h b)

theorem deRow_iff {n : Nat} (x : SVal T) (v : Fin n → T) : deRow n x = some v ↔ x = serVec v := by
  cases x with
  | leaf w => simp [deRow, serVec]
  | seq xs =>
    simp only [deRow, serVec, checkEnd_iff, SVal.seq.injEq]
    constructor
    · intro h
      have := visitN_exact (ser := SVal.leaf) (fun x b hb => (scalar_iff x b).1 hb) h
      simpa using this
    · intro h
      have := visitN_spec (de := SVal.scalar?) (ser := SVal.leaf) (fun b => rfl) v []
      rw [List.append_nil] at this
      rw [h]; exact this

end Verif.Mat
