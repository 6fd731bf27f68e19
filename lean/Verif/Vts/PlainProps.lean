import Verif.Vts.PlainModel
import Verif.Vts.ArbProps

/-!
# C121: the reader without tables
-/

namespace Verif.Vts

open Verif.Serialize

theorem hookPlain_ok : HookOk (fun _ : Unit => True) preV hookPlain := by
  intro info ws rds os vs bs h
  cases info with
  | none => exact h.read
  | some si =>
    simp only [hookPlain, readStructIndex, preV]
    exact Exact.bind (Exact.bind_nil (Exact.readRaw (leBytes 2 si.idx) 2 (leBytes_length 2 si.idx)) (Exact.pure _)) h.read

theorem readPlain_of_exact {env : Env} {t : Ty} {old v : Val} {bs : List UInt8} (h : Exact (fun _ : Unit => True) (readTy env hookPlain t old) bs v) :
    (∀ rest, readPlain env t old (bs ++ rest) = .ok (v, rest)) ∧ (∀ p, p <+: bs → p ≠ bs → readPlain env t old p = .throw .endOfFile) := by
  obtain ⟨h1, h2⟩ := h () trivial
  constructor
  · intro rest
    obtain ⟨c', _, e⟩ := h1 rest
    simp only [readPlain, e]
  · intro p hp hne
    simp only [readPlain, h2 p hp hne]

/-- C121: what `Writer::WriteV` has written is read back, whatever follows. -/
theorem c121_round_trip (env : Env) (t : Ty) (v o : Val) (hv : HasTy env t v) (hf : Fresh t o) :
    ∃ bs, writeTy env preV t v = .ok bs ∧ ∀ rest, readPlain env t o (bs ++ rest) = .ok (v, rest) := by
  obtain ⟨bs, e, x⟩ := readTy_exact env preV hookPlain hookPlain_ok t v o hv hf
  exact ⟨bs, e, (readPlain_of_exact x).1⟩

/-- C121: a stream that ends too early is reported. -/
theorem c121_truncated (env : Env) (t : Ty) (v o : Val) (hv : HasTy env t v) (hf : Fresh t o) (bs p : List UInt8) (hb : writeTy env preV t v = .ok bs)
    (hp : p <+: bs) (hne : p ≠ bs) : readPlain env t o p = .throw .endOfFile := by
  obtain ⟨b, e, x⟩ := readTy_exact env preV hookPlain hookPlain_ok t v o hv hf
  rw [hb] at e
  cases e
  exact (readPlain_of_exact x).2 p hp hne

/-- The bytes of several objects. -/
def writeAll (env : Env) (t : Ty) : List Val → Res (List UInt8)
  | [] => .ok []
  | v :: vs => do
    let a ← writeTy env preV t v
    let b ← writeAll env t vs
    .ok (a ++ b)

/-- C121: any number of objects written one after another are read back one after another. -/
theorem c121_sequence (env : Env) (t : Ty) : ∀ (vs os : List Val), vs.length = os.length → (∀ v ∈ vs, HasTy env t v) → (∀ o ∈ os, Fresh t o) →
    ∃ bs, writeAll env t vs = .ok bs ∧ ∀ rest, readPlainAll env t os (bs ++ rest) = .ok (vs, rest)
  | [], [], _, _, _ => ⟨[], rfl, fun _ => rfl⟩
  | [], _ :: _, h, _, _ => by simp at h
  | _ :: _, [], h, _, _ => by simp at h
  | v :: vs, o :: os, h, hv, ho => by
    obtain ⟨a, e1, r1⟩ := c121_round_trip env t v o (hv v (by simp)) (ho o (by simp))
    obtain ⟨b, e2, r2⟩ := c121_sequence env t vs os (by simpa using h) (fun v hv' => hv v (by simp [hv'])) (fun o ho' => ho o (by simp [ho']))
    refine ⟨a ++ b, by simp [writeAll, e1, e2], fun rest => ?_⟩
    simp only [readPlainAll, List.append_assoc, r1, r2, Res.ok_bind]

/-- C121: after the tables of the stream have been read, the reader without tables reads what the version tolerant reader reads. -/
theorem c121_after_tables (g : Cfg) (t : Ty) (v o : Val) (hF : Fits g.env.cap g.nm g.S) (htm : ∀ t ∈ g.S.fields, g.tm (g.nm t) = g.nm t)
    (hw : WellFormed g.ren t) (hd : Described g.S t) (hv : HasTy g.env t v) (hf : Fresh t o) :
    ∃ bs, writeV g.env g.nm g.S t v = .ok bs ∧ ∀ fuel, bs.length < fuel → ∀ rest, ∃ old s',
      readOldPrototypes g (bs ++ rest) = .ok (old, s') ∧ readPlain g.env t o s' = readV g fuel t o (bs ++ rest) ∧ readPlain g.env t o s' = .ok (v, rest) := by
  have hK : Known g.nm g g.S := by
    intro p _ f _ k _ t ht
    have hm := List.mem_of_getElem? ht
    rw [htm t hm]
    exact List.mem_map_of_mem hm
  obtain ⟨bs, h1, h2⟩ := c35_round_trip g t v o hF htm hw hd hv hf
  obtain ⟨a, old, e, _, _, r, _⟩ := readOldPrototypes_ok hF hK
  obtain ⟨b, e', r'⟩ := c121_round_trip g.env t v o hv hf
  have hb : bs = a ++ b := by
    simp only [writeV, e, e', Res.ok_bind, Res.ok.injEq] at h1
    exact h1.symm
  refine ⟨bs, h1, fun fuel hfuel rest => ⟨old, b ++ rest, ?_, ?_, r' rest⟩⟩
  · rw [hb, List.append_assoc, r]
  · rw [r' rest, h2 fuel hfuel rest]

theorem hookPlain_safe {N : Nat} (env : Env) : HookSafe (fun _ : Unit => True) N (fun _ _ => True) env hookPlain := by
  intro info ts rds olds _ hl hr hs
  rcases info with _ | si
  · exact plainHook_safe (D := fun _ _ => True) env none ts rds olds trivial hl hr hs
  · simp only [hookPlain]
    refine Safe.bind (P := fun _ => True) ?_ (fun _ _ => plainHook_safe (D := fun _ _ => True) env none ts rds olds trivial hl hr hs)
    exact Safe.bind (Safe.readRaw 2) (fun _ _ => Safe.pure _ trivial)

/-- C121: any bytes throw or give a legal value. Missing: the types that are not `Checked` (variants, rings without a limit, time points whose conversion multiplies; see C79). -/
theorem c121_arbitrary_bytes_partial (env : Env) (t : Ty) (o : Val) (s : List UInt8) (ht : Checked env t) (ho : Legal env t o) :
    (∃ e, readPlain env t o s = .throw e) ∨ ∃ v rest, readPlain env t o s = .ok (v, rest) ∧ Legal env t v ∧ rest <:+ s := by
  have hs := readTy_safe env hookPlain (hookPlain_safe (N := s.length) env) t o (structs_true t) ht ho () s trivial (Nat.le_refl _)
  unfold readPlain
  cases hr : readTy env hookPlain t o () s with
  | ok r =>
    obtain ⟨a, u, s2⟩ := r
    rw [hr] at hs
    exact Or.inr ⟨a, s2, rfl, hs.1, hs.2.2⟩
  | throw e => exact Or.inl ⟨e, rfl⟩
  | ub => rw [hr] at hs; exact hs.elim

/-- C121 is violated when the versions differ: the object of the other version is taken for one of this version, without any exception. -/
theorem c121_versions_violated : ∃ bs, writeTy ⟨none, 1000⟩ preV b1 (.list [.num 5, .num 600]) = .ok bs ∧
    readPlain ⟨none, 1000⟩ (.struct (some ⟨0, [[113], [112]]⟩) [.num 2, .num 1]) (.list [.num 0, .num 0]) bs = .ok (.list [.num 22533, .num 2], []) :=
  ⟨[1, 0, 5, 88, 2], by rfl, by rfl⟩

/-- The sample of C35. -/
example : ∃ bs, writeTy ⟨none, 1000⟩ preV a1 v1 = .ok bs ∧ ∀ rest, readPlain ⟨none, 1000⟩ a1 (dflt a1) (bs ++ rest) = .ok (v1, rest) :=
  c121_round_trip _ a1 v1 _ sample_hasTy (fresh_dflt a1)

example : ∃ bs, writeAll ⟨none, 1000⟩ a1 [v1, v1, v1] = .ok bs ∧ ∀ rest, readPlainAll ⟨none, 1000⟩ a1 [dflt a1, dflt a1, dflt a1] (bs ++ rest) = .ok ([v1, v1, v1], rest) :=
  c121_sequence _ a1 _ _ rfl (by simp; exact sample_hasTy) (by simp; exact fresh_dflt a1)

example : ∃ bs, writeV ⟨none, 1000⟩ sampleNm s1 a1 v1 = .ok bs ∧ ∀ fuel, bs.length < fuel → ∀ rest, ∃ old s',
    readOldPrototypes ⟨⟨none, 1000⟩, s1, sampleNm, fun _ n => n, id, false⟩ (bs ++ rest) = .ok (old, s') ∧
    readPlain ⟨none, 1000⟩ a1 (dflt a1) s' = readV ⟨⟨none, 1000⟩, s1, sampleNm, fun _ n => n, id, false⟩ fuel a1 (dflt a1) (bs ++ rest) ∧
    readPlain ⟨none, 1000⟩ a1 (dflt a1) s' = .ok (v1, rest) :=
  c121_after_tables ⟨⟨none, 1000⟩, s1, sampleNm, fun _ n => n, id, false⟩ a1 v1 (dflt a1) sample_fits (fun _ _ => rfl)
    (by simp only [a1, b1, WellFormed, WellFormedAll]; simp) sample_described1 sample_hasTy (fresh_dflt a1)

example (s : List UInt8) : (∃ e, readPlain g2.env a2 o2 s = .throw e) ∨ ∃ v rest, readPlain g2.env a2 o2 s = .ok (v, rest) ∧ Legal g2.env a2 v ∧ rest <:+ s :=
  c121_arbitrary_bytes_partial g2.env a2 o2 s (by simp [Checked, CheckedAll, a2, b2, g2]) (by simp [Legal, Legals, a2, b2, o2, g2])

end Verif.Vts
