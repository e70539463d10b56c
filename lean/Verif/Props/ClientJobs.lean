import Verif.Props.ClientMany
import Verif.Spec.ClientJobs
/-
C115 for verifying, repairing, restoring and tokens.
-/
namespace RankDB.Props
open Spec Routes Server Validate ClientArgs

/-- The handlers are called with exactly what the arguments of the call say; calls that say nothing proper are refused. -/
theorem C115_jobs_understood (u : UseJob) (hp : PathParams u.call) (hi : JobInts u) (j : Job) : sendJob u = some j ↔ Wants u j := by
  have hr := C114_arrives u.call hp
  have flag : ∀ x : Option Bool, boolParam (x.map formatBool) = some (x.getD false) := fun x => (boolParam_iff ..).2 (flag_iff.2 rfl)
  unfold sendJob receivedJob
  rw [hr, parse_encode]
  cases u <;> simp only [UseJob.call, meant, UseJob.args, UseJob.body]
  case repairList l c =>
    simp only [first, values_set_same, Option.head?_toList, flag]
    constructor
    · intro h
      split at h
      · rename_i hl
        cases h
        exact .repairList ((okListID_iff l).1 hl)
      · nomatch h
    · intro h
      cases h with
      | repairList h1 => rw [if_pos ((okListID_iff l).2 h1)]
  case verifyList l c r =>
    have k : w "clear" ≠ w "repair" := by decide +kernel
    simp only [first, values_append, values_set_same, values_set_other k, values_set_other k.symm, Option.head?_toList,
      List.append_nil, List.nil_append, flag]
    constructor
    · intro h
      split at h
      · rename_i hl
        cases h
        exact .verifyList ((okListID_iff l).1 hl)
      · nomatch h
    · intro h
      cases h with
      | verifyList h1 => rw [if_pos ((okListID_iff l).2 h1)]
  case verifyLists s c e o r =>
    have k1 : w "clear" ≠ w "elements" := by decide +kernel
    have k2 : w "clear" ≠ w "errors_only" := by decide +kernel
    have k3 : w "clear" ≠ w "repair" := by decide +kernel
    have k4 : w "elements" ≠ w "errors_only" := by decide +kernel
    have k5 : w "elements" ≠ w "repair" := by decide +kernel
    have k6 : w "errors_only" ≠ w "repair" := by decide +kernel
    simp only [first, values_append, values_set_same, values_set_other k1, values_set_other k1.symm, values_set_other k2,
      values_set_other k2.symm, values_set_other k3, values_set_other k3.symm, values_set_other k4, values_set_other k4.symm,
      values_set_other k5, values_set_other k5.symm, values_set_other k6, values_set_other k6.symm, Option.head?_toList,
      List.append_nil, List.nil_append, flag, BodyMany.asSelect]
    constructor
    · intro h
      cases h
      exact .verifyLists
    · rintro ⟨⟩
      rfl
  case restore k p s a b =>
    have k1 : w "keep" ≠ w "list_id_prefix" := by decide +kernel
    have k2 : w "keep" ≠ w "list_id_suffix" := by decide +kernel
    have k3 : w "keep" ≠ w "src" := by decide +kernel
    have k4 : w "keep" ≠ w "src_file" := by decide +kernel
    have k5 : w "list_id_prefix" ≠ w "list_id_suffix" := by decide +kernel
    have k6 : w "list_id_prefix" ≠ w "src" := by decide +kernel
    have k7 : w "list_id_prefix" ≠ w "src_file" := by decide +kernel
    have k8 : w "list_id_suffix" ≠ w "src" := by decide +kernel
    have k9 : w "list_id_suffix" ≠ w "src_file" := by decide +kernel
    have k10 : w "src" ≠ w "src_file" := by decide +kernel
    simp only [first, values_append, values_set_same, values_set_other k1, values_set_other k1.symm, values_set_other k2,
      values_set_other k2.symm, values_set_other k3, values_set_other k3.symm, values_set_other k4, values_set_other k4.symm,
      values_set_other k5, values_set_other k5.symm, values_set_other k6, values_set_other k6.symm, values_set_other k7,
      values_set_other k7.symm, values_set_other k8, values_set_other k8.symm, values_set_other k9, values_set_other k9.symm,
      values_set_other k10, values_set_other k10.symm, Option.head?_toList, List.append_nil, List.nil_append, flag]
    constructor
    · intro h
      cases h
      exact .restore
    · rintro ⟨⟩
      rfl
  case jwt sc e oe ol =>
    have k1 : w "expire" ≠ w "only_elements" := by decide +kernel
    have k2 : w "expire" ≠ w "only_lists" := by decide +kernel
    have k3 : w "expire" ≠ w "scope" := by decide +kernel
    have k4 : w "only_elements" ≠ w "only_lists" := by decide +kernel
    have k5 : w "only_elements" ≠ w "scope" := by decide +kernel
    have k6 : w "only_lists" ≠ w "scope" := by decide +kernel
    simp only [first, values_append, values_set_same, values_set_other k1, values_set_other k1.symm, values_set_other k2,
      values_set_other k2.symm, values_set_other k3, values_set_other k3.symm, values_set_other k4, values_set_other k4.symm,
      values_set_other k5, values_set_other k5.symm, values_set_other k6, values_set_other k6.symm, Option.head?_toList,
      List.append_nil, List.nil_append, Option.getD_some]
    cases e with
    | none =>
      simp only [Option.map_none, expireParam]
      constructor
      · intro h
        cases h
        exact .jwtDefault
      · rintro ⟨⟩
        rfl
    | some i =>
      simp only [Option.map_some, expireParam, (atoi_iff ..).2 (formatInt_integer (hi i rfl))]
      constructor
      · intro h
        by_cases hlt : i < 1
        · rw [if_pos hlt] at h
          nomatch h
        · rw [if_neg hlt] at h
          cases h
          have e : i = (i.toNat : Int) := by omega
          have := Wants.jwt (scope := sc) (onlyElements := oe) (onlyLists := ol) (minutes := i.toNat) (by omega)
          rw [← e] at this
          exact this
      · intro h
        cases h with
        | jwt hm => rw [if_neg (by omega)]; rfl

/-- A restoration with a suffix. -/
def exRestore : UseJob := .restore (some true) none (some (w "-copy of 1&2")) (some (w "server")) (some (w "backup.bin"))

example : PathParams exRestore.call ∧ JobInts exRestore ∧
    encode exRestore.args = w "keep=true&list_id_suffix=-copy+of+1%262&src=server&src_file=backup.bin" ∧
    sendJob exRestore = some (.restore true none (some (w "-copy of 1&2")) (w "server") (w "backup.bin")) := by
  have hp : PathParams exRestore.call := by
    intro x hx
    simp [exRestore, UseJob.call, meant] at hx
  exact ⟨hp, trivial, by decide +kernel, (C115_jobs_understood _ hp trivial _).2 .restore⟩

/-- A token for no time is refused. -/
example : sendJob (.jwt (w "api:read") (some 0) none none) = none := by
  cases h : sendJob (.jwt (w "api:read") (some 0) none none) with
  | none => rfl
  | some j =>
    have := (C115_jobs_understood _ (by intro x hx; simp [UseJob.call, meant] at hx) (by rintro i ⟨⟩; decide) j).1 h
    generalize he : (0 : Int) = z at this
    cases this
    omega

end RankDB.Props
