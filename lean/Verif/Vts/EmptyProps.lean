import Verif.Vts.Props

/-!
# C36: every structure that was written without fields
-/

namespace Verif.Vts

open Verif.Serialize

/-- The numbers of the given sizes that the bytes begin with (specification). -/
def numbersIn : List Nat → List UInt8 → List Val
  | [], _ => []
  | w :: ws, s => .num (leVal (s.take w)) :: numbersIn ws (s.drop w)

theorem readFields_nums {σ : Type} (env : Env) (h : Hook σ) : ∀ (ws : List Nat) (os : List Val) (c : σ) (s : List UInt8), os.length = ws.length →
    readFields (readTys env h (ws.map fun w => Ty.num w)) os c s =
      if s.length < ws.sum then .throw .endOfFile else .ok (numbersIn ws s, c, s.drop ws.sum) := by
  intro ws
  induction ws with
  | nil =>
    intro os c s h
    cases os with
    | nil => simp [readTys, readFields, numbersIn, pure, Rd.pure]
    | cons => simp at h
  | cons w ws ih =>
    intro os c s hl
    cases os with
    | nil => simp at hl
    | cons o os =>
      simp only [List.map_cons, readTys, readFields, readTy, bind, Rd.bind, pure, Rd.pure, readRaw]
      by_cases hw : s.length < w
      · have : s.length < w + ws.sum := by omega
        simp [hw, this]
      · have ih' := ih os c (s.drop w) (by simpa using hl)
        simp only [hw, if_false]
        rw [ih']
        simp only [List.length_drop, List.sum_cons]
        by_cases h2 : s.length - w < ws.sum
        · have : s.length < w + ws.sum := by omega
          simp [h2, this]
        · have : ¬ s.length < w + ws.sum := by omega
          simp [h2, this, numbersIn]

theorem convertFields_nil : ∀ (ns : List Name) (us : List Ty) (os : List Val), ns.length = os.length → us.length = os.length → convertFields [] ns us os = os := by
  intro ns
  induction ns with
  | nil => intro us os h _; cases os with | nil => rfl | cons => simp at h
  | cons n ns ih =>
    intro us os h1 h2
    cases os with
    | nil => simp at h1
    | cons o os =>
      cases us with
      | nil => simp at h2
      | cons u us => simp only [convertFields, List.lookup]; rw [ih us os (by simpa using h1) (by simpa using h2)]

/-- **C36 is violated** by every structure that was written without fields and has numbers now, of any sizes, whatever else is in the tables of the two programs: the members should keep their values, but
they are overwritten with the bytes that follow the structure, or the end of the stream is reported if there are not enough of them. -/
theorem c36_every_empty_violated {nm₁ : Ty → Name} {g : Cfg} {S₁ : Schema} (hF : Fits g.env.cap nm₁ S₁) (hK : Known nm₁ g S₁) {i j : Nat} (hi : S₁.protos[i]? = some []) (h16 : i < 2 ^ 16)
    {q : Proto} (hj : g.S.protos[j]? = some q) {names : List Name} {ws : List Nat} {os : List Val} (hn : names.length = ws.length) (ho : os.length = ws.length) :
    convert g.ren (.struct (some ⟨i, []⟩) []) (.list []) (.struct (some ⟨j, names⟩) (ws.map fun w => Ty.num w)) (.list os) = .list os ∧
    ∃ bs, writeV g.env nm₁ S₁ (.struct (some ⟨i, []⟩) []) (.list []) = .ok bs ∧ ∀ fuel rest,
      readV g fuel (.struct (some ⟨j, names⟩) (ws.map fun w => Ty.num w)) (.list os) (bs ++ rest) =
        if rest.length < ws.sum then .throw .endOfFile else .ok (.list (numbersIn ws rest), rest.drop ws.sum) := by
  refine ⟨?_, ?_⟩
  · simp only [convert]
    have := convertFields_nil names (ws.map fun w => Ty.num w) os (by omega) (by simp [ho])
    simp_all
  · obtain ⟨b, old, h1, _, h3, h4, _⟩ := readOldPrototypes_ok hF hK
    have ho1 : old[i]? = some [] := by rw [h3]; simp [hi]
    refine ⟨b ++ leBytes 2 i, by simp [writeV, h1, writeTy, writeTys, writeFields, preV], fun fuel rest => ?_⟩
    have hl : (leBytes 2 i).length = 2 := leBytes_length 2 i
    have hmap : mapPrototypes (g.S.fields.map g.nm) (g.ren j) [] q = .ok [] := by
      simp [mapPrototypes, mapFields]
    simp only [readV, List.append_assoc, h4, Res.ok_bind]
    simp only [readBody, readTy, hookV, bind, Rd.bind, readStructIndex, readRaw, pure, Rd.pure]
    have hlen : ¬ (leBytes 2 i ++ rest).length < 2 := by simp [hl]
    simp only [hlen, if_false, List.take_left' hl, List.drop_left' hl, leVal_leBytes 2 i h16, findProtoMapR, findProtoMap, ho1, hj, hmap, List.isEmpty_nil, if_true]
    rw [readFields_nums _ _ ws os _ rest ho]
    by_cases hr : rest.length < ws.sum <;> simp [hr]

/-- The structure of `c36_empty_structure_violated` meets the hypotheses. -/
example : ∃ bs, writeV ge.env sampleNm es1 e1 (.list []) = .ok bs ∧ ∀ fuel rest, readV ge fuel e2 (.list [.num 50]) (bs ++ 7 :: rest) = .ok (.list [.num 7], rest) := by
  obtain ⟨_, bs, h1, h2⟩ := c36_every_empty_violated (i := 0) (j := 0) (q := [([112], some 0)]) (names := [[112]]) (ws := [1]) (os := [.num 50]) c36_empty_structure_violated.1 c36_empty_structure_violated.2.1
    rfl (by decide) rfl rfl rfl
  refine ⟨bs, h1, fun fuel rest => ?_⟩
  have := h2 fuel (7 :: rest)
  simpa [e2, numbersIn, leVal] using this

end Verif.Vts
