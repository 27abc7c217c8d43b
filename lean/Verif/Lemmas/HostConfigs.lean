import Verif.Model.HostConfigs
import Verif.Lemmas.Workflow

/-! # Lemmas about host configurations and CMake's arguments -/

namespace Verif.Lemmas

open Verif.Spec Verif.HostConfig

mutual

/-- The cache entries a command may set, and whether by `FORCE`. -/
def settingsOne : HostCommand → List (Text × Bool)
  | .assign _ _ => []
  | .cache name _ force => [(name, force)]
  | .cond _ _ body => settingsAll body

/-- The same for a script. -/
def settingsAll : List HostCommand → List (Text × Bool)
  | [] => []
  | c :: cs => settingsOne c ++ settingsAll cs

end

/-- No setting of this name without `FORCE` comes after another one; `seen` says that there was one before. -/
def forcedAfter (n : Text) : Bool → List (Text × Bool) → Bool
  | _, [] => true
  | seen, (m, f) :: l => if m = n then (f || !seen) && forcedAfter n true l else forcedAfter n seen l

theorem forcedAfter_append (n : Text) (a b : List (Text × Bool)) : ∀ seen : Bool,
    forcedAfter n seen (a ++ b) = (forcedAfter n seen a && forcedAfter n (seen || a.any fun x => x.1 = n) b) := by
  induction a with
  | nil => intro seen; simp [forcedAfter]
  | cons x a ih =>
    intro seen
    obtain ⟨m, f⟩ := x
    rw [List.cons_append, forcedAfter, forcedAfter]
    by_cases h : m = n
    · rw [if_pos h, if_pos h, ih]
      simp [h, Bool.and_assoc]
    · rw [if_neg h, if_neg h, ih]
      simp [h]

theorem forcedAfter_other {n : Text} {l : List (Text × Bool)} : (∀ x ∈ l, x.1 ≠ n) → ∀ seen, forcedAfter n seen l = true := by
  induction l with
  | nil => intro _ _; rfl
  | cons x l ih =>
    intro h seen
    obtain ⟨m, f⟩ := x
    rw [forcedAfter, if_neg (h (m, f) (by simp))]
    exact ih (fun y hy => h y (List.mem_cons_of_mem _ hy)) seen

theorem forcedAfter_all {l : List (Text × Bool)} (h : ∀ x ∈ l, forcedAfter x.1 false l = true) (n : Text) :
    forcedAfter n false l = true := by
  by_cases hn : ∃ x ∈ l, x.1 = n
  · obtain ⟨x, hx, rfl⟩ := hn
    exact h x hx
  · exact forcedAfter_other (fun x hx e => hn ⟨x, hx, e⟩) _

/-- What a run says about one name. -/
def Agrees (n : Text) (s : Store) (r : Store × List (Text × Text)) (seen : Bool) : Prop :=
  r.1.cache.lookup n = (lastSaid r.2 n).or (s.cache.lookup n) ∧ ((r.1.cache.lookup n).isSome = true → seen = true)

theorem lastSaid_append (a b : List (Text × Text)) (n : Text) : lastSaid (a ++ b) n = (lastSaid b n).or (lastSaid a n) := by
  unfold lastSaid
  rw [List.reverse_append, lookup_append]

mutual

theorem agrees_one (env : Environment) (n : Text) : ∀ (c : HostCommand) (s : Store) (seen : Bool),
    forcedAfter n seen (settingsOne c) = true → ((s.cache.lookup n).isSome = true → seen = true) →
    Agrees n s (runCommand env c s) (seen || (settingsOne c).any fun x => x.1 = n)
  | .assign name value, s, seen, _, hs => by
    rw [runCommand]
    exact ⟨rfl, fun h => by simp [hs h]⟩
  | .cache name value force, s, seen, hf, hs => by
    rw [runCommand]
    rw [settingsOne, forcedAfter] at hf
    unfold Agrees Store.setCache
    dsimp only
    by_cases hn : name = n
    · subst hn
      rw [if_pos rfl] at hf
      have hf := (Bool.and_eq_true _ _ ▸ hf).1
      have hset : (force || (s.cache.lookup name).isNone) = true := by
        cases force with
        | true => rfl
        | false =>
          have h0 : seen = false := by simpa using hf
          cases hl : s.cache.lookup name with
          | none => rfl
          | some x => rw [hl] at hs; rw [h0] at hs; exact absurd (hs rfl) (by decide)
      rw [if_pos hset]
      refine ⟨?_, fun _ => by simp [settingsOne]⟩
      simp [lastSaid]
    · have hne : (n == name) = false := beq_false_of_ne (Ne.symm hn)
      have h1 : lastSaid [(name, valueText env s value)] n = none := by simp [lastSaid, List.lookup_cons, hne]
      rw [h1]
      by_cases hset : (force || (s.cache.lookup name).isNone) = true
      · rw [if_pos hset]
        have : List.lookup n ((name, valueText env s value) :: s.cache) = s.cache.lookup n := by
          simp [List.lookup_cons, hne]
        exact ⟨this, fun h => by rw [this] at h; simp [hs h]⟩
      · rw [if_neg hset]
        exact ⟨rfl, fun h => by simp [hs h]⟩
  | .cond name negated body, s, seen, hf, hs => by
    rw [runCommand]
    rw [settingsOne] at hf ⊢
    by_cases hc : s.holds name = negated
    · rw [if_pos hc]
      exact ⟨rfl, fun h => by simp [hs h]⟩
    · rw [if_neg hc]
      exact agrees_all env n body s seen hf hs

theorem agrees_all (env : Environment) (n : Text) : ∀ (cs : List HostCommand) (s : Store) (seen : Bool),
    forcedAfter n seen (settingsAll cs) = true → ((s.cache.lookup n).isSome = true → seen = true) →
    Agrees n s (runCommands env cs s) (seen || (settingsAll cs).any fun x => x.1 = n)
  | [], s, seen, _, hs => by
    rw [runCommands]
    exact ⟨rfl, fun h => by simp [hs h]⟩
  | c :: cs, s, seen, hf, hs => by
    rw [settingsAll, forcedAfter_append, Bool.and_eq_true] at hf
    obtain ⟨h1, h2⟩ := agrees_one env n c s seen hf.1 hs
    obtain ⟨h3, h4⟩ := agrees_all env n cs (runCommand env c s).1 _ hf.2 h2
    rw [runCommands]
    refine ⟨?_, fun h => ?_⟩
    · show List.lookup n (runCommands env cs (runCommand env c s).1).1.cache = _
      rw [h3, h1]
      show _ = (lastSaid ((runCommand env c s).2 ++ (runCommands env cs (runCommand env c s).1).2) n).or _
      rw [lastSaid_append, Option.or_assoc]
    · have := h4 h
      rw [settingsAll, List.any_append, ← Bool.or_assoc]
      exact this

end

/-- If a name is set again only by `FORCE`, the last word counts. -/
theorem last_counts (env : Environment) (script : List HostCommand) (n : Text)
    (h : forcedAfter n false (settingsAll script) = true) :
    (cacheAfter env script []).lookup n = lastSaid (told env script []) n := by
  obtain ⟨h1, -⟩ := agrees_all env n script ⟨[], []⟩ false h (by simp)
  rw [cacheAfter, told, h1]
  simp

/-! ### scripts that do not look at the environment -/

/-- The value does not look at the environment. -/
def fixedValue : List ValuePart → Bool
  | [] => true
  | .env _ :: _ => false
  | .lit _ :: ps => fixedValue ps
  | .var _ :: ps => fixedValue ps

mutual

/-- The command does not look at the environment. -/
def fixedOne : HostCommand → Bool
  | .assign _ value => fixedValue value
  | .cache _ value _ => fixedValue value
  | .cond _ _ body => fixedAll body

/-- The same for a script. -/
def fixedAll : List HostCommand → Bool
  | [] => true
  | c :: cs => fixedOne c && fixedAll cs

end

theorem valueText_fixed (env : Environment) (s : Store) (v : List ValuePart) (h : fixedValue v = true) :
    valueText env s v = valueText [] s v := by
  induction v with
  | nil => rfl
  | cons p ps ih =>
    cases p with
    | lit t => rw [valueText, valueText, ih h]
    | var t => rw [valueText, valueText, ih h]
    | env t => cases h

mutual

theorem run_fixedOne (env : Environment) : ∀ (c : HostCommand) (s : Store), fixedOne c = true →
    runCommand env c s = runCommand [] c s
  | .assign name value, s, h => by
    rw [runCommand, runCommand, valueText_fixed env s value h]
  | .cache name value force, s, h => by
    rw [runCommand, runCommand, valueText_fixed env s value h]
  | .cond name negated body, s, h => by
    rw [runCommand, runCommand, run_fixedAll env body s h]

theorem run_fixedAll (env : Environment) : ∀ (cs : List HostCommand) (s : Store), fixedAll cs = true →
    runCommands env cs s = runCommands [] cs s
  | [], s, _ => by rw [runCommands, runCommands]
  | c :: cs, s, h => by
    rw [fixedAll, Bool.and_eq_true] at h
    rw [runCommands, runCommands, run_fixedOne env c s h.1, run_fixedAll env cs _ h.2]

end

theorem cacheAfter_fixed (env : Environment) (script : List HostCommand) (h : fixedAll script = true)
    (cache : List (Text × Text)) : cacheAfter env script cache = cacheAfter [] script cache := by
  rw [cacheAfter, cacheAfter, run_fixedAll env script _ h]

theorem told_fixed (env : Environment) (script : List HostCommand) (h : fixedAll script = true)
    (cache : List (Text × Text)) : told env script cache = told [] script cache := by
  rw [told, told, run_fixedAll env script _ h]

/-! ### `environment.cmake` -/

/-- What `environment.cmake` sets first. -/
def firstSix (env : Environment) : List (Text × Text) :=
  [(t!"ENABLE_CUDA", env.get t!"ENABLE_CUDA"), (t!"ENABLE_GTEST_DEATH_TESTS", t!"ON"), (t!"ENABLE_MPI", t!"OFF"),
   (t!"ENABLE_FORTRAN", t!"OFF"), (t!"CMAKE_CXX_COMPILER", env.get t!"CXX"), (t!"CMAKE_C_COMPILER", env.get t!"CC")]

/-- What `environment.cmake` sets last. -/
def lastThree : List (Text × Text) :=
  [(t!"SHIVA_ENABLE_BOUNDS_CHECK", t!"ON"), (t!"SHIVA_ENABLE_UNIT_TESTS", t!"ON"), (t!"SHIVA_ENABLE_BLT", t!"ON")]

theorem setCache_force (s : Store) (n v : Text) : s.setCache n v true = { s with cache := (n, v) :: s.cache } := rfl

theorem holds_head (l c : List (Text × Text)) (n v : Text) (h : l.lookup n = none) :
    Store.holds ⟨l, (n, v) :: c⟩ n = !cmakeOff v := by
  rw [Store.holds, Store.find, h]
  simp

theorem environment_off (env : Environment) (h : cmakeOff (env.get t!"ENABLE_CUDA") = true) :
    cacheAfter env environment [] = lastThree ++ firstSix env := by
  unfold cacheAfter environment
  simp only [runCommands, runCommand, setCache_force, valueText, List.append_nil]
  rw [if_pos]
  · rfl
  · rw [holds_head _ _ _ _ rfl, h]; rfl

/-- The CUDA toolkit of `environment.cmake`. -/
def toolkit (env : Environment) : Text :=
  if cmakeOff (env.get t!"CUDA_TOOLKIT_ROOT_DIR") then t!"/usr/local/cuda" else env.get t!"CUDA_TOOLKIT_ROOT_DIR"

theorem environment_on (env : Environment) (h : cmakeOff (env.get t!"ENABLE_CUDA") = false) :
    ∃ l flags, (∀ x ∈ l, x.1 = t!"CUDA_TOOLKIT_ROOT_DIR") ∧ cacheAfter env environment [] =
      lastThree ++ (t!"CMAKE_CUDA_FLAGS", flags) :: (t!"CMAKE_CUDA_COMPILER", toolkit env ++ t!"/bin/nvcc") ::
      (t!"CMAKE_CUDA_HOST_COMPILER", env.get t!"CXX") ::
      (t!"CMAKE_CUDA_ARCHITECTURES", env.get t!"CMAKE_CUDA_ARCHITECTURES") ::
      (t!"CUDA_TOOLKIT_ROOT_DIR", toolkit env) :: (l ++ firstSix env) := by
  unfold cacheAfter environment
  simp only [runCommands, runCommand, setCache_force, valueText, List.append_nil]
  rw [if_neg]
  · by_cases ht : cmakeOff (env.get t!"CUDA_TOOLKIT_ROOT_DIR") = true
    · rw [if_neg]
      · refine ⟨[(t!"CUDA_TOOLKIT_ROOT_DIR", env.get t!"CUDA_TOOLKIT_ROOT_DIR")],
          t!"-restrict --expt-extended-lambda --expt-relaxed-constexpr " ++
            t!"-Werror cross-execution-space-call,reorder,deprecated-declarations", by simp, ?_⟩
        have : toolkit env = t!"/usr/local/cuda" := by rw [toolkit, if_pos ht]
        rw [this]
        rfl
      · rw [holds_head _ _ _ _ rfl, ht]; decide
    · rw [if_pos]
      · refine ⟨[], t!"-restrict --expt-extended-lambda --expt-relaxed-constexpr " ++
            t!"-Werror cross-execution-space-call,reorder,deprecated-declarations", by simp, ?_⟩
        have : toolkit env = env.get t!"CUDA_TOOLKIT_ROOT_DIR" := by rw [toolkit, if_neg ht]
        rw [this]
        rfl
      · rw [holds_head _ _ _ _ rfl, Bool.eq_false_iff.2 ht]; decide
  · rw [holds_head _ _ _ _ rfl, h]; decide

/-- What `environment.cmake` leaves under names it sets, or does not. -/
theorem environment_lookup (env : Environment) :
    (cacheAfter env environment []).lookup t!"CMAKE_C_COMPILER" = some (env.get t!"CC") ∧
    (cacheAfter env environment []).lookup t!"CMAKE_CXX_COMPILER" = some (env.get t!"CXX") ∧
    (cacheAfter env environment []).lookup t!"ENABLE_CUDA" = some (env.get t!"ENABLE_CUDA") ∧
    (cacheAfter env environment []).lookup t!"SHIVA_ENABLE_BLT" = some t!"ON" ∧
    (cacheAfter env environment []).lookup t!"SHIVA_ENABLE_UNIT_TESTS" = some t!"ON" ∧
    (cacheAfter env environment []).lookup t!"SHIVA_ENABLE_BOUNDS_CHECK" = some t!"ON" ∧
    (∀ n ∈ [t!"SHIVA_ENABLE_CUDA", t!"SHIVA_ENABLE_HIP", t!"ENABLE_HIP", t!"SHIVA_ENABLE_CAMP",
      t!"CMAKE_CUDA_COMPILER_VERSION"], (cacheAfter env environment []).lookup n = none) ∧
    (cmakeOff (env.get t!"ENABLE_CUDA") = false →
      (cacheAfter env environment []).lookup t!"CMAKE_CUDA_ARCHITECTURES" = some (env.get t!"CMAKE_CUDA_ARCHITECTURES") ∧
      (cacheAfter env environment []).lookup t!"CMAKE_CUDA_HOST_COMPILER" = some (env.get t!"CXX") ∧
      (cacheAfter env environment []).lookup t!"CMAKE_CUDA_COMPILER" = some (toolkit env ++ t!"/bin/nvcc")) := by
  cases h : cmakeOff (env.get t!"ENABLE_CUDA") with
  | true =>
    rw [environment_off env h]
    refine ⟨rfl, rfl, rfl, rfl, rfl, rfl, fun n hn => ?_, fun h => (by cases h)⟩
    simp only [List.mem_cons, List.not_mem_nil, or_false] at hn
    rcases hn with rfl | rfl | rfl | rfl | rfl <;> rfl
  | false =>
    obtain ⟨l, flags, hl, e⟩ := environment_on env h
    rw [e]
    have hl' : ∀ n : Text, n ≠ t!"CUDA_TOOLKIT_ROOT_DIR" → (l ++ firstSix env).lookup n = (firstSix env).lookup n := by
      intro n hn
      rw [lookup_append, List.lookup_eq_none_iff.2 fun p hp => by rw [hl p hp]; simpa using hn]
      rfl
    refine ⟨(hl' t!"CMAKE_C_COMPILER" (by decide)).trans rfl, (hl' t!"CMAKE_CXX_COMPILER" (by decide)).trans rfl,
      (hl' t!"ENABLE_CUDA" (by decide)).trans rfl, rfl, rfl, rfl, fun n hn => ?_, fun _ => ⟨rfl, rfl, rfl⟩⟩
    simp only [List.mem_cons, List.not_mem_nil, or_false] at hn
    rcases hn with rfl | rfl | rfl | rfl | rfl
    · exact (hl' t!"SHIVA_ENABLE_CUDA" (by decide)).trans rfl
    · exact (hl' t!"SHIVA_ENABLE_HIP" (by decide)).trans rfl
    · exact (hl' t!"ENABLE_HIP" (by decide)).trans rfl
    · exact (hl' t!"SHIVA_ENABLE_CAMP" (by decide)).trans rfl
    · exact (hl' t!"CMAKE_CUDA_COMPILER_VERSION" (by decide)).trans rfl

/-! ### arguments -/

theorem arguments_plain (scripts : Text → Option (List HostCommand)) (env : Environment) (args : List Text) :
    (∀ a ∈ args, a ≠ t!"-C" ∧ a ≠ t!"-G") → ∀ cache,
      cacheOfArguments scripts env args cache = some ((args.filterMap definition).reverse ++ cache) := by
  induction args with
  | nil => intro _ cache; rw [cacheOfArguments]; rfl
  | cons a args ih =>
    intro h cache
    obtain ⟨h1, h2⟩ := h a (by simp)
    cases args with
    | nil =>
      rw [cacheOfArguments]
      cases hd : definition a <;> simp [hd]
    | cons b rest =>
      rw [cacheOfArguments, if_neg h1, if_neg h2, ih (fun x hx => h x (List.mem_cons_of_mem _ hx))]
      congr 1
      cases hd : definition a <;> simp [List.filterMap_cons, hd]

theorem arguments_cons (scripts : Text → Option (List HostCommand)) (env : Environment) (a : Text) (l : List Text)
    (cache : List (Text × Text)) (h1 : a ≠ t!"-C") (h2 : a ≠ t!"-G") :
    cacheOfArguments scripts env (a :: l) cache = cacheOfArguments scripts env l ((definition a).toList ++ cache) := by
  cases l with
  | nil => rw [cacheOfArguments, cacheOfArguments]
  | cons b l => rw [cacheOfArguments, if_neg h1, if_neg h2]

theorem arguments_generator (scripts : Text → Option (List HostCommand)) (env : Environment) (a : Text) (l : List Text)
    (cache : List (Text × Text)) :
    cacheOfArguments scripts env (t!"-G" :: a :: l) cache = cacheOfArguments scripts env l cache := by
  rw [cacheOfArguments, if_neg (by decide), if_pos rfl]

/-- A text without `=` and `:` before the first `=`. -/
theorem definition_of {name value : Text} (h1 : '=' ∉ name) (h2 : ':' ∉ name) :
    definition (t!"-D" ++ (name ++ '=' :: value)) = some (name, value) := by
  have e1 : ∀ w : Text, '=' ∉ w → (w ++ '=' :: value).takeWhile (· ≠ '=') = w ∧
      (w ++ '=' :: value).dropWhile (· ≠ '=') = '=' :: value := by
    intro w
    induction w with
    | nil => intro _; simp
    | cons c w ih =>
      intro hw
      have hc : c ≠ '=' := fun e => hw (by simp [e])
      obtain ⟨g1, g2⟩ := ih (fun e => hw (List.mem_cons_of_mem _ e))
      simp only [List.cons_append, List.takeWhile_cons, List.dropWhile_cons, hc, ne_eq, not_false_eq_true, decide_true,
        if_true, g1, g2, and_self]
  have e2 : name.takeWhile (· ≠ ':') = name := by
    have : ∀ w : Text, ':' ∉ w → w.takeWhile (· ≠ ':') = w := by
      intro w
      induction w with
      | nil => intro _; rfl
      | cons c w ih =>
        intro hw
        have hc : c ≠ ':' := fun e => hw (by simp [e])
        have g := ih (fun e => hw (List.mem_cons_of_mem _ e))
        simp only [List.takeWhile_cons, hc, ne_eq, not_false_eq_true, decide_true, if_true, g]
    exact this name h2
  unfold definition
  rw [if_pos ⟨⟨_, rfl⟩, by simp⟩]
  show some (((name ++ '=' :: value).takeWhile (· ≠ '=')).takeWhile (· ≠ ':'),
    ((name ++ '=' :: value).dropWhile (· ≠ '=')).tail) = _
  rw [(e1 name h1).1, (e1 name h1).2, e2, List.tail_cons]

end Verif.Lemmas
