import Verif.Props.BlockOps
import Verif.Lemmas.ApplyBc
/-! # Lemmas on repeated indices -/
namespace Verif.BlockOps
open Verif
variable {K : Type}

theorem scat_last : ∀ (is : List Nat) (ys ans : List (List K)), ys.length = is.length →
    ∀ k, k < ans.length → (scat is ys ans)[k]? = (ApplyBc.lastVal (is.zip ys) k).or ans[k]?
  | [], _, ans, _, k, _ => by simp [scat, ApplyBc.lastVal_nil]
  | _ :: _, [], _, h, _, _ => by simp at h
  | i :: is, y :: ys, ans, h, k, hk => by
      rw [scat, scat_last is ys _ (by simpa using h) k (by simpa using hk), List.zip_cons_cons,
        ApplyBc.lastVal_cons, List.getElem?_set]
      by_cases hik : i = k
      · subst hik
        cases ApplyBc.lastVal (is.zip ys) i <;> simp [hk]
      · cases ApplyBc.lastVal (is.zip ys) k <;> simp [hik]

theorem subSelectT_eq [Zero K] (indices dims : List Nat) (ys : List (List K))
    (hr : ∀ i ∈ indices, i < dims.length) (hl : ys.length = indices.length) :
    subSelectT indices dims (pack ys) =
      .ok (bvec (scat indices ys (dims.map (fun n => List.replicate n (0 : K))))) := by
  have harg : subSelectArg indices (pack ys) = .ok (ys.map BVal.vec) := by
    match ys, hl with
    | [], hl => simp [pack, subSelectArg, ← hl]
    | [v], hl => simp [pack, subSelectArg, ← hl]
    | a :: b :: r, hl => simp [pack, subSelectArg, ← hl]
  have hsc := scatterLoop_eq ys indices 0 (dims.map (fun n => List.replicate n (0 : K))) (by omega)
    (by simpa using hr)
  have hmm : dims.map (fun n => BVal.vec (List.replicate n (0 : K))) =
      (dims.map (fun n => List.replicate n (0 : K))).map BVal.vec := by simp
  simp only [subSelectT, harg, py_bind_ok, hmm, hsc, List.drop_zero]
  rfl

theorem scat_same {Z : Nat → List K} : ∀ (is : List Nat) (ans : List (List K)) (k : Nat), k < ans.length →
    (scat is (is.map Z) ans)[k]? = if k ∈ is then some (Z k) else ans[k]?
  | [], _, _, _ => by simp [scat]
  | i :: is, ans, k, hk => by
      rw [List.map_cons, scat, scat_same is _ k (by simpa using hk), List.getElem?_set]
      by_cases h1 : k ∈ is
      · simp [h1]
      · by_cases h2 : i = k
        · subst h2; simp [hk]
        · simp [h1, h2, Ne.symm h2]

theorem scat_append : ∀ (is is' : List Nat) (ys ys' ans : List (List K)), ys.length = is.length →
    scat (is ++ is') (ys ++ ys') ans = scat is' ys' (scat is ys ans)
  | [], _, [], _, _, _ => by simp [scat]
  | [], _, _ :: _, _, _, h => by simp at h
  | _ :: _, _, [], _, _, h => by simp at h
  | i :: is, is', y :: ys, ys', ans, h => by
      simp only [List.cons_append, scat]
      exact scat_append is is' ys ys' _ (by simpa using h)

theorem exists_repeated : ∀ {l : List Nat}, ¬ l.Nodup → ∃ l1 i l2, l = l1 ++ i :: l2 ∧ i ∈ l2
  | [], h => absurd List.nodup_nil h
  | a :: l, h => by
      by_cases ha : a ∈ l
      · exact ⟨[], a, l, rfl, ha⟩
      · obtain ⟨l1, i, l2, h1, h2⟩ := exists_repeated (l := l) (fun hn => h (List.nodup_cons.2 ⟨ha, hn⟩))
        exact ⟨a :: l1, i, l2, by rw [h1]; rfl, h2⟩

end Verif.BlockOps
