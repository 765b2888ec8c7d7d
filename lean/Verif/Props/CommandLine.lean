import Verif.Spec.Options
import Verif.Proofs.LoadAny
import Mathlib.Tactic.NormNum

/-
C59: the command lines of the programs.
-/

namespace Spasm

theorem ato_dec {bits : Nat} {x : Int} (h : -2 ^ bits ≤ x ∧ x < 2 ^ bits) : ato bits (dec x) = .ok x := by
  unfold ato
  have := scanInt_dec (w := []) (by simp [Blank]) x (s := []) (by simp)
  rw [List.nil_append, List.append_nil] at this
  rw [dec_eq, this]
  simp only
  rw [if_pos h]

theorem lastVal_snoc {α β : Type} (g : α → Option β) (d : β) (l : List α) (a : α) :
    lastVal g d (l ++ [a]) = (g a).getD (lastVal g d l) := by
  unfold lastVal
  rw [List.filterMap_append]
  cases h : g a with
  | none => simp [h]
  | some b => simp [h]

section
variable {κ ρ : Type} (atof : List Char → Dbl) (init : ρ) (own : ρ → κ → ρ)

/-- C59. What is common to the programs `rank`, `kernel` and `solve`; `own` is the parser of the options of one
program. -/
theorem C59_common (l : List (Arg κ Int (List Char))) (hf : ∀ a ∈ l, a.Fits) :
    Ok (argp_parse atof init own (l.map Arg.text)) fun a =>
      Means atof l a.input a.opts ∧ a.own = (l.filterMap Arg.ownOf).foldl own init := by
  unfold argp_parse
  induction l using List.reverseRecOn with
  | nil =>
    simp only [List.map_nil, List.foldlM_nil, Ok_pure]
    refine ⟨?_, rfl⟩
    constructor <;> first | rfl | simp [EchOpts.init]
  | append_singleton l x ih =>
    rw [List.map_append, List.foldlM_append, Ok_bind]
    refine (ih fun a ha => hf a (by simp [ha])).mono fun a h => ?_
    obtain ⟨⟨m1, m2, m3, m4, m5, m6, m7, m8, m9, m10, m11, m12, m13, m14, m15⟩, h2⟩ := h
    have hx := hf x (by simp)
    simp only [List.map_cons, List.map_nil, List.foldlM_cons, List.foldlM_nil, Ok_bind]
    cases x with
    | own k =>
      simp only [Arg.text, parse_arg, Ok_ok, Ok_pure, List.filterMap_append, List.foldl_append]
      refine ⟨?_, by rw [h2]; rfl⟩
      constructor <;> first | (simp only [lastVal_snoc]; assumption) | (simpa using ‹_›)
    | input o =>
      cases o with
      | matrix f =>
        simp only [Arg.text, InputOpt.text, parse_arg, parse_input_opt, Ok_bind, Ok_ok, Ok_pure, List.filterMap_append,
          List.foldl_append]
        refine ⟨?_, by rw [h2]; rfl⟩
        constructor <;> first | (simp only [lastVal_snoc]; assumption) | (simp only [lastVal_snoc]; rfl) | (simpa using ‹_›)
      | modulus p =>
        simp only [Arg.text, InputOpt.text, parse_arg, parse_input_opt, Ok_bind, ato_dec hx, Ok_ok, Ok_pure,
          List.filterMap_append, List.foldl_append]
        refine ⟨?_, by rw [h2]; rfl⟩
        constructor <;> first | (simp only [lastVal_snoc]; assumption) | (simp only [lastVal_snoc]; rfl) | (simpa using ‹_›)
    | ech o =>
      cases o <;>
        simp only [Arg.text, EchOpt.text, parse_arg, parse_ech_opt, Ok_bind, Ok_ok, Ok_pure, List.filterMap_append,
          List.foldl_append]
      case max_iter n =>
        rw [ato_dec hx]
        simp only [Ok_ok]
        refine ⟨?_, by rw [h2]; rfl⟩
        constructor <;> first | (simp only [lastVal_snoc]; assumption) | (simp only [lastVal_snoc]; rfl) | (simpa using ‹_›)
      case blksz n =>
        rw [ato_dec hx]
        simp only [Ok_ok]
        refine ⟨?_, by rw [h2]; rfl⟩
        constructor <;> first | (simp only [lastVal_snoc]; assumption) | (simp only [lastVal_snoc]; rfl) | (simpa using ‹_›)
      all_goals
        refine ⟨?_, by rw [h2]; rfl⟩
        constructor <;> first | (simp only [lastVal_snoc]; assumption) | (simp only [lastVal_snoc]; rfl) | (simpa using ‹_›)
    | arg s => exact absurd hx id

/-- C59. An argument that is not an option makes the program fail, once the options before it have been accepted. -/
theorem C59_argument (l l' : List (Arg κ (List Char) (List Char))) (s : List Char) (a : Args ρ)
    (h : argp_parse atof init own l = .ok a) : argp_parse atof init own (l ++ .arg s :: l') = .error .exitErr := by
  unfold argp_parse at h ⊢
  rw [List.foldlM_append, h]
  rfl

/-- C59. `rank`. -/
theorem C59_rank (l : List (Arg RankOpt Int (List Char))) (hf : ∀ a ∈ l, a.Fits) :
    Ok (argp_parse atof RankArgs.init parse_rank_opt (l.map Arg.text)) fun a =>
      Means atof l a.input a.opts ∧ (a.own.certificate = true ↔ .own .certificate ∈ l) ∧
      (a.own.allow_transpose = true ↔ .own .no_transpose ∉ l) ∧ a.own.cert_file = lastVal Arg.certOf none l := by
  refine (C59_common atof RankArgs.init parse_rank_opt l hf).mono fun a h => ⟨h.1, ?_⟩
  rw [h.2]
  clear h hf
  induction l using List.reverseRecOn with
  | nil => simp [RankArgs.init, lastVal]
  | append_singleton l x ih =>
    obtain ⟨i1, i2, i3⟩ := ih
    rw [List.filterMap_append, List.foldl_append, lastVal_snoc]
    rcases x with (_ | _ | f) | _ | _ | _ <;>
      simp [Arg.ownOf, parse_rank_opt, Arg.certOf, i1, i2, i3, List.filterMap_cons]

/-- C59. `kernel`. -/
theorem C59_kernel (l : List (Arg KerOpt Int (List Char))) (hf : ∀ a ∈ l, a.Fits) :
    Ok (argp_parse atof KerArgs.init parse_ker_opt (l.map Arg.text)) fun a =>
      Means atof l a.input a.opts ∧ (a.own.left = true ↔ .own .left ∈ l) ∧
      a.own.output_filename = lastVal Arg.kerOf none l := by
  refine (C59_common atof KerArgs.init parse_ker_opt l hf).mono fun a h => ⟨h.1, ?_⟩
  rw [h.2]
  clear h hf
  induction l using List.reverseRecOn with
  | nil => simp [KerArgs.init, lastVal]
  | append_singleton l x ih =>
    obtain ⟨i1, i2⟩ := ih
    rw [List.filterMap_append, List.foldl_append, lastVal_snoc]
    rcases x with (_ | f) | _ | _ | _ <;>
      simp [Arg.ownOf, parse_ker_opt, Arg.kerOf, i1, i2, List.filterMap_cons]

/-- C59. `solve`. -/
theorem C59_solve (l : List (Arg SolveOpt Int (List Char))) (hf : ∀ a ∈ l, a.Fits) :
    Ok (argp_parse atof SolveArgs.init parse_solve_opt (l.map Arg.text)) fun a =>
      Means atof l a.input a.opts ∧ a.own.rhs_filename = lastVal Arg.rhsOf none l ∧
      a.own.output_filename = lastVal Arg.solOf none l := by
  refine (C59_common atof SolveArgs.init parse_solve_opt l hf).mono fun a h => ⟨h.1, ?_⟩
  rw [h.2]
  clear h hf
  induction l using List.reverseRecOn with
  | nil => simp [SolveArgs.init, lastVal]
  | append_singleton l x ih =>
    obtain ⟨i1, i2⟩ := ih
    rw [List.filterMap_append, List.foldl_append, lastVal_snoc, lastVal_snoc]
    rcases x with (_ | f) | _ | _ | _ <;>
      simp [Arg.ownOf, parse_solve_opt, Arg.rhsOf, Arg.solOf, i1, i2, List.filterMap_cons]

/-- C59. `echelonize`, for moduli of 32 bits.  Missing: those of 64 bits (`C59_atoi`). -/
theorem C59_echelonize_partial (l : List (EchelonOpt Int (List Char))) (hf : ∀ a ∈ l, a.Fits) :
    Ok (parse_echelon atof (l.map EchelonOpt.text)) fun a =>
      a.prime = lastVal EchelonOpt.modulusOf 42013 l ∧ (a.rref = true ↔ .rref ∈ l) ∧
      a.opts = { EchOpts.init with
        enable_greedy_pivot_search := a.opts.enable_greedy_pivot_search
        enable_tall_and_skinny := a.opts.enable_tall_and_skinny
        dense_block_size := lastVal EchelonOpt.blockOf 1000 l
        low_rank_start_weight := lastVal (fun o => (EchelonOpt.weightOf o).map Dbl.ofInt) (.fin (-1)) l
        sparsity_threshold := lastVal (fun o => (EchelonOpt.thresholdOf o).map atof) (.fin (rnd 53 (1 / 20))) l } ∧
      (a.opts.enable_greedy_pivot_search = true ↔ .no_greedy ∉ l) ∧
      (a.opts.enable_tall_and_skinny = true ↔ .no_low_rank ∉ l) := by
  unfold parse_echelon
  induction l using List.reverseRecOn with
  | nil => simp [EchelonArgs.init, EchOpts.init, lastVal, Ok_pure]
  | append_singleton l x ih =>
    rw [List.map_append, List.foldlM_append, Ok_bind]
    refine (ih fun a ha => hf a (by simp [ha])).mono fun a h => ?_
    obtain ⟨m1, m2, m3, m4, m5⟩ := h
    have hx := hf x (by simp)
    simp only [List.map_cons, List.map_nil, List.foldlM_cons, List.foldlM_nil, Ok_bind, lastVal_snoc]
    cases x <;> simp only [EchelonOpt.text, parse_echelon_opt, Ok_bind, Ok_ok, Ok_pure]
    case modulus p =>
      rw [ato_dec hx]
      simp only [Ok_ok]
      exact ⟨rfl, by simpa using m2, m3, by simpa using m4, by simpa using m5⟩
    case blksz n =>
      rw [ato_dec hx]
      simp only [Ok_ok]
      refine ⟨m1, by simpa using m2, ?_, by simpa using m4, by simpa using m5⟩
      rw [m3]; rfl
    case start_weight n =>
      rw [ato_dec hx]
      simp only [Ok_ok]
      refine ⟨m1, by simpa using m2, ?_, by simpa using m4, by simpa using m5⟩
      rw [m3]; rfl
    case rref => exact ⟨m1, by simp, m3, by simpa using m4, by simpa using m5⟩
    case no_greedy =>
      refine ⟨m1, by simpa using m2, ?_, by simp, by simpa using m5⟩
      rw [m3]; rfl
    case no_low_rank =>
      refine ⟨m1, by simpa using m2, ?_, by simpa using m4, by simp⟩
      rw [m3]; rfl
    case sparsity d =>
      refine ⟨m1, by simpa using m2, ?_, by simpa using m4, by simpa using m5⟩
      rw [m3]; rfl

/-- C59 (negation). The library computes modulo primes up to 0xfffffffb (`C02`), but `echelonize --modulus` reads an
`int`: for these the program has no defined behaviour. -/
theorem C59_atoi (p : Int) (h : 2 ^ 31 ≤ p) (l : List (EchelonOpt (List Char) (List Char))) :
    parse_echelon atof (.modulus (dec p) :: l) = .error .ub := by
  unfold parse_echelon
  rw [List.foldlM_cons]
  have hs := scanInt_dec (w := []) (by simp [Blank]) p (s := []) (by simp)
  rw [List.nil_append, List.append_nil] at hs
  have : ato 31 (dec p) = .error .ub := by
    unfold ato
    rw [dec_eq, hs]
    simp only
    rw [if_neg (by omega)]
  unfold parse_echelon_opt
  simp only [this]
  rfl

/-- C59. A text without digits is read as 0; since there is no field with 0 elements, a modulus given in this way is
refused by the library. -/
theorem C59_no_number (l : List (Arg κ (List Char) (List Char))) (a : Args ρ) (s : List Char)
    (hs : ∀ c ∈ s, c.isDigit = false) (h : argp_parse atof init own l = .ok a) :
    argp_parse atof init own (l ++ [.input (.modulus s)]) = .ok { a with input := { a.input with prime := 0 } } ∧
    field_init 0 = .error .assertFail := by
  refine ⟨?_, rfl⟩
  have hn : ato 63 s = .ok 0 := by
    unfold ato
    have : (scanInt s).1 = none := by
      unfold scanInt
      obtain ⟨p, hp⟩ := skipWs_suffix s
      obtain ⟨p', hp', _⟩ := scanSign_suffix (skipWs s)
      rcases h1 : scanSign (skipWs s) with ⟨neg, t⟩
      rw [h1] at hp'
      have ht : ∀ c ∈ t, c.isDigit = false := fun c hc => hs c (by
        rw [hp, hp']
        exact List.mem_append_right _ (List.mem_append_right _ hc))
      have : (t.takeWhile Char.isDigit).isEmpty = true := by
        cases t with
        | nil => rfl
        | cons c t => rw [List.takeWhile_cons_of_neg (by rw [ht c (by simp)]; decide)]; rfl
      simp only [this, if_true]
    rw [this]
  unfold argp_parse at h ⊢
  rw [List.foldlM_append, h]
  show List.foldlM (parse_arg atof own) a [.input (.modulus s)] = _
  rw [List.foldlM_cons]
  simp only [parse_arg, parse_input_opt, hn]
  rfl

end

/-! ### Examples -/

/-- `rank --modulus 7 --no-GPLU --matrix a.sms --modulus 4294967291 -c --max-iterations 2` -/
def exLine : List (Arg RankOpt Int (List Char)) :=
  [.input (.modulus 7), .ech .no_gplu, .input (.matrix "a.sms".toList), .input (.modulus 4294967291),
    .own .certificate, .ech (.max_iter 2)]

/-- `rank --modulus x` -/
example (atof : List Char → Dbl) : ∃ a, argp_parse atof RankArgs.init parse_rank_opt [.input (.modulus ['x'])] = .ok a ∧
    a.input.prime = 0 := ⟨_, (C59_no_number atof RankArgs.init parse_rank_opt [] _ ['x'] (by decide) rfl).1, rfl⟩

example (atof : List Char → Dbl) : Ok (argp_parse atof RankArgs.init parse_rank_opt (exLine.map Arg.text)) fun a =>
    a.input.prime = 4294967291 ∧ a.input.filename = some "a.sms".toList ∧ a.own.certificate = true ∧
    a.own.allow_transpose = true ∧ a.opts.enable_GPLU = false ∧ a.opts.max_round = 2 ∧
    a.opts.dense_block_size = 1000 := by
  refine (C59_rank atof exLine ?_).mono fun a h => ?_
  · intro a ha
    simp only [exLine, List.mem_cons, List.not_mem_nil, or_false] at ha
    rcases ha with rfl | rfl | rfl | rfl | rfl | rfl <;> simp [Arg.Fits]
  · obtain ⟨m, h1, h2, -⟩ := h
    refine ⟨m.prime, m.file, h1.2 (by simp [exLine]), h2.2 (by simp [exLine]), ?_, m.rounds, m.block⟩
    rw [← Bool.not_eq_true, m.gplu]
    simp [exLine]

example (atof : List Char → Dbl) :
    argp_parse atof KerArgs.init parse_ker_opt [.own .left, .arg "a.sms".toList] = .error .exitErr :=
  C59_argument atof KerArgs.init parse_ker_opt [.own .left] [] "a.sms".toList _ rfl

example (atof : List Char → Dbl) : Ok (argp_parse atof KerArgs.init parse_ker_opt
    ([.own .left, .own (.output ['k']), .input (.modulus 3)].map Arg.text)) fun a =>
    a.own.left = true ∧ a.own.output_filename = some ['k'] ∧ a.input.prime = 3 := by
  refine (C59_kernel atof [.own .left, .own (.output ['k']), .input (.modulus 3)] ?_).mono fun a h =>
    ⟨h.2.1.2 (by simp), h.2.2, h.1.prime⟩
  intro a ha
  simp only [List.mem_cons, List.not_mem_nil, or_false] at ha
  rcases ha with rfl | rfl | rfl <;> simp [Arg.Fits]

example (atof : List Char → Dbl) : Ok (argp_parse atof SolveArgs.init parse_solve_opt
    ([.own (.rhs ['b']), .own (.output ['x']), .input (.modulus 3)].map Arg.text)) fun a =>
    a.own.rhs_filename = some ['b'] ∧ a.own.output_filename = some ['x'] ∧ a.input.filename = none := by
  refine (C59_solve atof [.own (.rhs ['b']), .own (.output ['x']), .input (.modulus 3)] ?_).mono fun a h =>
    ⟨h.2.1, h.2.2, h.1.file⟩
  intro a ha
  simp only [List.mem_cons, List.not_mem_nil, or_false] at ha
  rcases ha with rfl | rfl | rfl <;> simp [Arg.Fits]

example (atof : List Char → Dbl) : Ok (parse_echelon atof ([.modulus 65537, .rref, .blksz 10].map EchelonOpt.text))
    fun a => a.prime = 65537 ∧ a.rref = true ∧ a.opts.enable_tall_and_skinny = true := by
  refine (C59_echelonize_partial atof [.modulus 65537, .rref, .blksz 10] ?_).mono fun a h =>
    ⟨h.1, h.2.1.2 (by simp), h.2.2.2.2.2 (by simp)⟩
  intro a ha
  simp only [List.mem_cons, List.not_mem_nil, or_false] at ha
  rcases ha with rfl | rfl | rfl <;> simp [EchelonOpt.Fits]

example (atof : List Char → Dbl) : parse_echelon atof [.modulus (dec 4294967291)] = .error .ub :=
  C59_atoi atof 4294967291 (by norm_num) []

end Spasm
