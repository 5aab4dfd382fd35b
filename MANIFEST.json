{
 "claims": [
  {
   "property": "C01",
   "status": "proved",
   "theorems": [
    "ShogiCore.C01_new",
    "ShogiCore.C01_surjective",
    "ShogiCore.C01_injective"
   ],
   "note": ""
  },
  {
   "property": "C02",
   "status": "proved",
   "theorems": [
    "ShogiCore.C02_from_u8_iff",
    "ShogiCore.C02_roundtrip",
    "ShogiCore.C02_from_u8_index",
    "ShogiCore.C02_all"
   ],
   "note": ""
  },
  {
   "property": "C03",
   "status": "proved",
   "theorems": [
    "ShogiCore.C03_shift"
   ],
   "note": ""
  },
  {
   "property": "C04",
   "status": "proved",
   "theorems": [
    "ShogiCore.C04_flip_coords",
    "ShogiCore.C04_flip_involutive",
    "ShogiCore.C04_relative",
    "ShogiCore.C04_new_relative"
   ],
   "note": ""
  },
  {
   "property": "C05",
   "status": "proved",
   "theorems": [
    "ShogiCore.C05_square_consts",
    "ShogiCore.C05_square_consts_complete",
    "ShogiCore.C05_piece_consts",
    "ShogiCore.C05_piece_consts_complete"
   ],
   "note": ""
  },
  {
   "property": "C06",
   "status": "proved",
   "theorems": [
    "ShogiCore.C06_promote_spec",
    "ShogiCore.C06_inverse",
    "ShogiCore.C06_promote_none",
    "ShogiCore.C06_unpromote_none",
    "ShogiCore.C06_piece",
    "ShogiCore.C06_piece_inverse"
   ],
   "note": ""
  },
  {
   "property": "C07",
   "status": "proved",
   "theorems": [
    "ShogiCore.C07_new",
    "ShogiCore.C07_to_parts",
    "ShogiCore.C07_bytes",
    "ShogiCore.C07_all",
    "ShogiCore.C07_array_index",
    "ShogiCore.C07_kind_color"
   ],
   "note": ""
  },
  {
   "property": "C08",
   "status": "proved",
   "theorems": [
    "ShogiCore.C08_square",
    "ShogiCore.C08_piece",
    "ShogiCore.C08_piece_kind",
    "ShogiCore.C08_compact_move",
    "ShogiCore.C08_game_resolution",
    "ShogiCore.C08_illegal_move_kind",
    "ShogiCore.C08_piece_kind_from_u8",
    "ShogiCore.C08_illegal_move_kind_from_u8"
   ],
   "note": ""
  },
  {
   "property": "C09",
   "status": "proved",
   "theorems": [
    "ShogiCore.C09_total",
    "ShogiCore.C09_count_mod",
    "ShogiCore.C09_count",
    "ShogiCore.C09_verdicts",
    "ShogiCore.C09_frame",
    "ShogiCore.C09_hand_pieces"
   ],
   "note": ""
  },
  {
   "property": "C10",
   "status": "proved",
   "theorems": [
    "ShogiCore.C10_added",
    "ShogiCore.C10_remove_added",
    "ShogiCore.C10_add_removed",
    "ShogiCore.C10_wrappers"
   ],
   "note": ""
  },
  {
   "property": "C11",
   "status": "proved",
   "theorems": [
    "ShogiCore.C11_eq_iff",
    "ShogiCore.C11_seven",
    "ShogiCore.C11_any_endianness"
   ],
   "note": ""
  },
  {
   "property": "C12",
   "status": "proved",
   "theorems": [
    "ShogiCore.C12_roundtrip",
    "ShogiCore.C12_roundtrip_compact",
    "ShogiCore.C12_injective",
    "ShogiCore.C12_constructors"
   ],
   "note": ""
  },
  {
   "property": "C13",
   "status": "proved",
   "theorems": [
    "ShogiCore.C13_accessors",
    "ShogiCore.C13_move_accessors"
   ],
   "note": ""
  },
  {
   "property": "C14",
   "status": "proved",
   "theorems": [
    "ShogiCore.C14_position",
    "ShogiCore.C14_parse",
    "ShogiCore.C14_text_eq_iff",
    "ShogiCore.C14_forget_eq_iff",
    "ShogiCore.C14_compact"
   ],
   "note": "Among all moves the text forgets exactly the colour of a dropped piece (C14_forget_eq_iff); among the moves accepted in one position it determines the move (C14_position)."
  },
  {
   "property": "C15",
   "status": "proved",
   "theorems": [
    "ShogiCore.C15_contains_total",
    "ShogiCore.C15_empty",
    "ShogiCore.C15_single",
    "ShogiCore.C15_and",
    "ShogiCore.C15_or",
    "ShogiCore.C15_xor",
    "ShogiCore.C15_not",
    "ShogiCore.C15_andnot",
    "ShogiCore.C15_assign_square",
    "ShogiCore.C15_references",
    "ShogiCore.C15_assign_square_ref",
    "ShogiCore.C15_assign_square_ref_eq"
   ],
   "note": ""
  },
  {
   "property": "C16",
   "status": "proved",
   "theorems": [
    "ShogiCore.C16_canonical",
    "ShogiCore.C16_extensional",
    "ShogiCore.C16_extensional_all"
   ],
   "note": "Expressions include shift_right by 2..=9; shift_right by 0 and 1 is excluded because of the defect in C22."
  },
  {
   "property": "C17",
   "status": "proved",
   "theorems": [
    "ShogiCore.C17_count",
    "ShogiCore.C17_lists_exists",
    "ShogiCore.C17_is_empty"
   ],
   "note": ""
  },
  {
   "property": "C18",
   "status": "proved",
   "theorems": [
    "ShogiCore.C18_pop",
    "ShogiCore.C18_iterate",
    "ShogiCore.C18_size_hint"
   ],
   "note": ""
  },
  {
   "property": "C19",
   "status": "proved",
   "theorems": [
    "ShogiCore.C19_flip",
    "ShogiCore.C19_involutive"
   ],
   "note": ""
  },
  {
   "property": "C20",
   "status": "proved",
   "theorems": [
    "ShogiCore.C20_shift_down",
    "ShogiCore.C20_shift_up"
   ],
   "note": ""
  },
  {
   "property": "C21",
   "status": "proved",
   "theorems": [
    "ShogiCore.C21_shift_left"
   ],
   "note": ""
  },
  {
   "property": "C22",
   "status": "proved",
   "theorems": [
    "ShogiCore.C22_contains",
    "ShogiCore.C22_canonical_iff",
    "ShogiCore.C22_shift_right",
    "ShogiCore.C22_refuted",
    "ShogiCore.C22_refuted_pop"
   ],
   "note": "Defect: shift_right(0) with 8a occupied and shift_right(1) with 9a occupied leave a stray bit (C22_refuted, C22_refuted_pop). Membership is proved for all deltas (C22_contains), canonicity is characterised exactly (C22_canonical_iff), and the documented contract is proved outside those two cases (C22_shift_right)."
  },
  {
   "property": "C23",
   "status": "proved",
   "theorems": [
    "ShogiCore.C23_from_file",
    "ShogiCore.C23_get_file",
    "ShogiCore.C23_roundtrip"
   ],
   "note": ""
  },
  {
   "property": "C24",
   "status": "proved",
   "theorems": [
    "ShogiCore.C24_u128",
    "ShogiCore.C24_u128_swapped",
    "ShogiCore.C24_swap_swap",
    "ShogiCore.C24_ops",
    "ShogiCore.C24_bytes"
   ],
   "note": ""
  },
  {
   "property": "C25",
   "status": "proved",
   "theorems": [
    "ShogiCore.C25_bitboards",
    "ShogiCore.C25_total",
    "ShogiCore.C25_canonical"
   ],
   "note": ""
  },
  {
   "property": "C26",
   "status": "proved",
   "theorems": [
    "ShogiCore.C26_piece_set",
    "ShogiCore.C26_overwrite"
   ],
   "note": ""
  },
  {
   "property": "C27",
   "status": "proved",
   "theorems": [
    "ShogiCore.C27_make_move",
    "ShogiCore.C27_make_compact_move",
    "ShogiCore.C27_position"
   ],
   "note": ""
  },
  {
   "property": "C28",
   "status": "proved",
   "theorems": [
    "ShogiCore.C28_accept_iff",
    "ShogiCore.C28_never"
   ],
   "note": ""
  },
  {
   "property": "C29",
   "status": "proved",
   "theorems": [
    "ShogiCore.C29_effect",
    "ShogiCore.C29_determined"
   ],
   "note": ""
  },
  {
   "property": "C30",
   "status": "proved",
   "theorems": [
    "ShogiCore.C30_conservation",
    "ShogiCore.C30_no_wrap",
    "ShogiCore.C30_general"
   ],
   "note": ""
  },
  {
   "property": "C31",
   "status": "proved",
   "theorems": [
    "ShogiCore.C31_games",
    "ShogiCore.C31_preserved",
    "ShogiCore.C31_never_captured",
    "ShogiCore.C31_piece_set",
    "ShogiCore.C31_piece_set_safe",
    "ShogiCore.C31_refuted"
   ],
   "note": "For arbitrary piece_set histories the claim is false (C31_refuted); C31_piece_set gives the exact behaviour."
  },
  {
   "property": "C32",
   "status": "proved",
   "theorems": [
    "ShogiCore.C32_bookkeeping",
    "ShogiCore.C32_setters",
    "ShogiCore.C32_hand_mut"
   ],
   "note": ""
  },
  {
   "property": "C33",
   "status": "proved",
   "theorems": [
    "ShogiCore.C33_replay",
    "ShogiCore.C33_last_move",
    "ShogiCore.C33_deprecated_refuted"
   ],
   "note": "The deprecated Position::piece_set and hand_of_a_player_mut break the correspondence (C33_deprecated_refuted)."
  },
  {
   "property": "C34",
   "status": "proved",
   "theorems": [
    "ShogiCore.C34_compact",
    "ShogiCore.C34_compact_position",
    "ShogiCore.C34_all"
   ],
   "note": ""
  },
  {
   "property": "C35",
   "status": "proved",
   "theorems": [
    "ShogiCore.C35_board",
    "ShogiCore.C35_bitboards",
    "ShogiCore.C35_default",
    "ShogiCore.C35_empty"
   ],
   "note": ""
  },
  {
   "property": "C36",
   "status": "proved",
   "theorems": [
    "ShogiCore.C36_lossless",
    "ShogiCore.C36_injective",
    "ShogiCore.C36_all_positions"
   ],
   "note": ""
  },
  {
   "property": "C37",
   "status": "proved",
   "theorems": [
    "ShogiCore.C37_games",
    "ShogiCore.C37_general",
    "ShogiCore.C37_refuted"
   ],
   "note": "For game positions (137 bytes suffice). The documented 139-byte bound is false for arbitrary positions: C37_refuted exhibits one needing exactly the general maximum of 236 (C37_general)."
  },
  {
   "property": "C38",
   "status": "proved",
   "theorems": [
    "ShogiCore.C38_memory",
    "ShogiCore.C38_position"
   ],
   "note": ""
  },
  {
   "property": "C39",
   "status": "proved",
   "theorems": [
    "ShogiCore.C39_square",
    "ShogiCore.C39_kind",
    "ShogiCore.C39_piece",
    "ShogiCore.C39_color",
    "ShogiCore.C39_hands",
    "ShogiCore.C39_move",
    "ShogiCore.C39_compact_move",
    "ShogiCore.C39_position"
   ],
   "note": ""
  },
  {
   "property": "C40",
   "status": "proved",
   "theorems": [
    "ShogiCore.C40_u8",
    "ShogiCore.C40_u16"
   ],
   "note": ""
  },
  {
   "property": "C41",
   "status": "proved",
   "theorems": [
    "ShogiCore.C41_piece_prefix_free",
    "ShogiCore.C41_piece_shape",
    "ShogiCore.C41_kind",
    "ShogiCore.C41_color",
    "ShogiCore.C41_hand_parse",
    "ShogiCore.C41_hand_injective",
    "ShogiCore.C41_hand_dash"
   ],
   "note": ""
  },
  {
   "property": "C42",
   "status": "proved",
   "theorems": [
    "ShogiCore.C42_finished",
    "ShogiCore.C42_in_progress",
    "ShogiCore.C42_only_inner"
   ],
   "note": ""
  },
  {
   "property": "C43",
   "status": "proved",
   "theorems": [
    "ShogiCore.C43_make_move",
    "ShogiCore.C43_all_legal",
    "ShogiCore.C43_contract_needed"
   ],
   "note": ""
  },
  {
   "property": "C44",
   "status": "proved",
   "theorems": [
    "ShogiCore.C44_order",
    "ShogiCore.C44_laws",
    "ShogiCore.C44_consistent",
    "ShogiCore.C44_partial_cmp",
    "ShogiCore.C44_max_min",
    "ShogiCore.C44_positions",
    "ShogiCore.C44_games",
    "ShogiCore.C44_game_positions",
    "ShogiCore.C44_game_types",
    "ShogiCore.C44_refuted"
   ],
   "note": "Orders are total and compatible with == except on PartialPositions whose king was removed by piece_set (C44_refuted); C44_positions characterises the order exactly."
  },
  {
   "property": "C45",
   "status": "proved",
   "theorems": [
    "ShogiCore.C45_hash",
    "ShogiCore.C45_exact",
    "ShogiCore.C45_prefix_free"
   ],
   "note": ""
  },
  {
   "property": "C46",
   "status": "proved",
   "theorems": [
    "ShogiCore.C46_general",
    "ShogiCore.C46_games"
   ],
   "note": ""
  },
  {
   "property": "C47",
   "status": "proved",
   "theorems": [
    "ShogiCore.C47_partial_game",
    "ShogiCore.C47_game",
    "ShogiCore.C47_any_state"
   ],
   "note": ""
  },
  {
   "property": "C48",
   "status": "proved",
   "theorems": [
    "ShogiCore.C48_no_ub",
    "ShogiCore.C48_valid",
    "ShogiCore.C48_refuted_shift_right",
    "ShogiCore.C48_contracts_exact"
   ],
   "note": "Two documented contracts are narrowed because they are wrong in the code: shift_right needs 2..=9 (C22, C48_refuted_shift_right) and to_sfen_c needs 236 bytes (C37_refuted)."
  },
  {
   "property": "C49",
   "status": "proved",
   "theorems": [
    "ShogiCore.C49_disjoint",
    "ShogiCore.C49_inside",
    "ShogiCore.C49_failure",
    "ShogiCore.C49_permanent",
    "ShogiCore.C49_failure_permanent",
    "ShogiCore.C49_no_panic",
    "ShogiCore.C49_solo",
    "ShogiCore.C49_exact",
    "ShogiCore.C49_progress"
   ],
   "note": ""
  },
  {
   "property": "C50",
   "status": "proved",
   "theorems": [
    "ShogiCore.C50_offset",
    "ShogiCore.C50_address",
    "ShogiCore.C50_page",
    "ShogiCore.C50_refuted"
   ],
   "note": "Defect: GlobalAlloc's alignment contract is not met for an arbitrarily placed arena (C50_refuted). C50_address is the exact condition; C50_page gives a sufficient one for all layouts."
  },
  {
   "property": "C51",
   "status": "proved",
   "theorems": [
    "ShogiCore.C51_memcpy",
    "ShogiCore.C51_memcpy_downwards",
    "ShogiCore.C51_memcpy_ub",
    "ShogiCore.C51_memset",
    "ShogiCore.C51_bzero",
    "ShogiCore.C51_fill_ub",
    "ShogiCore.C51_memcmp",
    "ShogiCore.C51_memcmp_sign"
   ],
   "note": ""
  },
  {
   "property": "C52",
   "status": "proved",
   "theorems": [
    "ShogiCore.C52_decodable",
    "ShogiCore.C52_Square_new",
    "ShogiCore.C52_Square_new_relative",
    "ShogiCore.C52_Square_from_u8_unchecked",
    "ShogiCore.C52_PieceKind",
    "ShogiCore.C52_PieceKind_from_u8_unchecked",
    "ShogiCore.C52_Piece",
    "ShogiCore.C52_Piece_new",
    "ShogiCore.C52_Hand",
    "ShogiCore.C52_CompactMove_from",
    "ShogiCore.C52_Bitboard_pop",
    "ShogiCore.C52_Bitboard_ops",
    "ShogiCore.C52_piece_at",
    "ShogiCore.C52_last_compact_move",
    "ShogiCore.C52_startpos",
    "ShogiCore.C52_make_compact_move",
    "ShogiCore.C52_resolution"
   ],
   "note": "Wrappers that are only export_name attributes on the Rust method are the same function and need no theorem. Position_startpos/Position_destruct (Box) are in C69."
  },
  {
   "property": "C53",
   "status": "proved",
   "theorems": [
    "ShogiCore.C53_step",
    "ShogiCore.C53_general",
    "ShogiCore.C53_refinement",
    "ShogiCore.C53_unique",
    "ShogiCore.C53_total"
   ],
   "note": "Ply is compared modulo 65536 (the code wraps). From arbitrary set-up positions the refinement needs fewer than 255 pieces of a kind (C53_general); from the starting position no bound is needed (C53_refinement)."
  },
  {
   "property": "C54",
   "status": "proved",
   "theorems": [
    "ShogiCore.C54_record",
    "ShogiCore.C54_moves"
   ],
   "note": ""
  },
  {
   "property": "C55",
   "status": "proved",
   "theorems": [
    "ShogiCore.C55_observers"
   ],
   "note": ""
  },
  {
   "property": "C56",
   "status": "proved",
   "theorems": [
    "ShogiCore.C56_reversible"
   ],
   "note": ""
  },
  {
   "property": "C57",
   "status": "proved",
   "theorems": [
    "ShogiCore.C57_boolean",
    "ShogiCore.C57_derived",
    "ShogiCore.C57_count",
    "ShogiCore.C57_shift_add",
    "ShogiCore.C57_flip_shift_down",
    "ShogiCore.C57_flip_shift_left",
    "ShogiCore.C57_shift_comm",
    "ShogiCore.C57_shift_back",
    "ShogiCore.C57_shift_distrib",
    "ShogiCore.C57_shift_right"
   ],
   "note": "shift_right takes part only where it keeps the representation valid (C22)."
  },
  {
   "property": "C58",
   "status": "proved",
   "theorems": [
    "ShogiCore.C58_shift_down",
    "ShogiCore.C58_shift_up",
    "ShogiCore.C58_shift_left",
    "ShogiCore.C58_shift_right",
    "ShogiCore.C58_flip"
   ],
   "note": "shift_right: outside the two cases of C22."
  },
  {
   "property": "C59",
   "status": "proved",
   "theorems": [
    "ShogiCore.C59_loops",
    "ShogiCore.C59_counts"
   ],
   "note": ""
  },
  {
   "property": "C60",
   "status": "proved",
   "theorems": [
    "ShogiCore.C60_flip",
    "ShogiCore.C60_make_move",
    "ShogiCore.C60_games",
    "ShogiCore.C60_bitboards",
    "ShogiCore.C60_exists"
   ],
   "note": "C60_exists excludes ply 0, which ply_set refuses (a position reaches it only by the wrap of finding f); last_move is not part of the relation."
  },
  {
   "property": "C61",
   "status": "proved",
   "theorems": [
    "ShogiCore.C61_ply_inert",
    "ShogiCore.C61_never_equal",
    "ShogiCore.C61_within_game",
    "ShogiCore.C61_repetition",
    "ShogiCore.C61_sharp"
   ],
   "note": ""
  },
  {
   "property": "C62",
   "status": "proved",
   "theorems": [
    "ShogiCore.C62_exact",
    "ShogiCore.C62_answers",
    "ShogiCore.C62_determined"
   ],
   "note": ""
  },
  {
   "property": "C63",
   "status": "proved",
   "theorems": [
    "ShogiCore.C63_program",
    "ShogiCore.C63_equal",
    "ShogiCore.C63_permutation",
    "ShogiCore.C63_refuted_two_kings"
   ],
   "note": ""
  },
  {
   "property": "C64",
   "status": "proved",
   "theorems": [
    "ShogiCore.C64_private",
    "ShogiCore.C64_fresh",
    "ShogiCore.C64_budget",
    "ShogiCore.C64_exhaustion"
   ],
   "note": "Stores respect ownership by assumption (a premise of the store transition)."
  },
  {
   "property": "C65",
   "status": "proved",
   "theorems": [
    "ShogiCore.C65_realloc",
    "ShogiCore.C65_zeroed"
   ],
   "note": "core's default realloc and alloc_zeroed are modelled from their documentation, on top of this crate's memcpy and memset."
  },
  {
   "property": "C66",
   "status": "proved",
   "theorems": [
    "ShogiCore.C66_transmission",
    "ShogiCore.C66_exact",
    "ShogiCore.C66_robust",
    "ShogiCore.C66_stable",
    "ShogiCore.C66_refuted_ply"
   ],
   "note": "Sender and receiver are client programs defined in Spec/Wire.lean; move number 0 (reached only by wrapping) is excluded from C66_transmission and shown to fail in C66_refuted_ply."
  },
  {
   "property": "C67",
   "status": "proved",
   "theorems": [
    "ShogiCore.C67_wait_free",
    "ShogiCore.C67_refuted_spurious",
    "ShogiCore.C67_all_finish",
    "ShogiCore.C67_contention"
   ],
   "note": "Steps are those of the interleaving model of fetch_update (load, closure, compare-exchange). Spurious failures are excluded from the bounds and shown to admit none (C67_refuted_spurious)."
  },
  {
   "property": "C68",
   "status": "proved",
   "theorems": [
    "ShogiCore.C68_layout",
    "ShogiCore.C68_roundtrip",
    "ShogiCore.C68_fields",
    "ShogiCore.C68_memcmp",
    "ShogiCore.C68_refuted_memcmp",
    "ShogiCore.C68_program"
   ],
   "note": "The layout rules of repr(C) and of C are written down in Model/Layout.lean; padding bytes are never written by a store of a value and copied by an assignment."
  },
  {
   "property": "C69",
   "status": "proved",
   "theorems": [
    "ShogiCore.C69_handles",
    "ShogiCore.C69_independent",
    "ShogiCore.C69_verdict",
    "ShogiCore.C69_total",
    "ShogiCore.C69_exhaustion",
    "ShogiCore.C69_reached",
    "ShogiCore.C69_refuted_release"
   ],
   "note": "A boxed Position is a value at its address; the bytes of the box and of the move buffer are not represented. C69_exhaustion and C69_reached give the exact number for every layout. The figures 172 (64-bit) and 175 (32-bit) use the lower bounds 2*368+24 and 2*368+12 on the size of Position. C69_refuted_release shows that destructing does not make room."
  },
  {
   "property": "C70",
   "status": "proved",
   "theorems": [
    "ShogiCore.C70_enums",
    "ShogiCore.C70_squares_pieces",
    "ShogiCore.C70_moves",
    "ShogiCore.C70_hands",
    "ShogiCore.C70_hands_monotone",
    "ShogiCore.C70_positions",
    "ShogiCore.C70_records",
    "ShogiCore.C70_games",
    "ShogiCore.C70_options",
    "ShogiCore.C70_bitboards",
    "ShogiCore.C70_subset",
    "ShogiCore.C70_ascending",
    "ShogiCore.C70_refuted_pieces",
    "ShogiCore.C70_compact_agrees",
    "ShogiCore.C70_refuted_compact",
    "ShogiCore.C70_refuted_u128"
   ],
   "note": "Each comparison is the dictionary order of a list of numbers written with public observers (Spec/OrderKey.lean). Where a plausible guess is wrong there is a refutation: Piece::all is not sorted, CompactMove is not ordered as Move, Bitboard not as to_u128."
  },
  {
   "property": "C71",
   "status": "proved",
   "theorems": [
    "ShogiCore.C71_refines",
    "ShogiCore.C71_cost",
    "ShogiCore.C71_capacity",
    "ShogiCore.C71_any_growth",
    "ShogiCore.C71_doubling",
    "ShogiCore.C71_reached",
    "ShogiCore.C71_longest"
   ],
   "note": "Runs with buffers refine the runs of C69. Vec is alloc's code, taken from its documentation; the growth policy is a parameter of every theorem except C71_doubling and C71_longest, which are for doubling from 4 (what alloc does at present for elements of this size). size_of(Move) >= 3 is a hypothesis, since the language leaves the layout of Move open."
  },
  {
   "property": "C72",
   "status": "proved",
   "theorems": [
    "ShogiCore.C72_prototypes",
    "ShogiCore.C72_structs",
    "ShogiCore.C72_enumerators",
    "ShogiCore.C72_constants",
    "ShogiCore.C72_names",
    "ShogiCore.C72_link",
    "ShogiCore.C72_callable"
   ],
   "note": "Tables transcribed from the header and from the sources (by script) and compared under stated calling-convention rules for all four platforms; the set of callable functions by induction on the typing of C expressions."
  },
  {
   "property": "C73",
   "status": "proved",
   "theorems": [
    "ShogiCore.C73_recipe",
    "ShogiCore.C73_twin",
    "ShogiCore.C73_same_view",
    "ShogiCore.C73_same_moves",
    "ShogiCore.C73_moves",
    "ShogiCore.C73_session",
    "ShogiCore.C73_not_repaired",
    "ShogiCore.C73_moves_exact",
    "ShogiCore.C73_harmless_kept",
    "ShogiCore.C73_text_exact",
    "ShogiCore.C73_eighth_byte"
   ],
   "note": "The side byte must be 0 or 1 (a Rust enum); every other byte of the struct is arbitrary. The recipe (a) is an equivalence with reachability through the Rust API."
  },
  {
   "property": "C74",
   "status": "proved",
   "theorems": [
    "ShogiCore.C74_again",
    "ShogiCore.C74_takeback",
    "ShogiCore.C74_invisible",
    "ShogiCore.C74_refuted_eq",
    "ShogiCore.C74_search",
    "ShogiCore.C74_node",
    "ShogiCore.C74_unwind",
    "ShogiCore.C74_games",
    "ShogiCore.C74_games_ply",
    "ShogiCore.C74_refuted_ply",
    "ShogiCore.C74_refuted_king"
   ],
   "note": "The hypotheses (tracked kings, move number not 0) are shown to be needed (C74_refuted_king, C74_refuted_ply) and to hold in all games (C74_games)."
  },
  {
   "property": "C75",
   "status": "proved",
   "theorems": [
    "ShogiCore.C75_decode",
    "ShogiCore.C75_distinct",
    "ShogiCore.C75_game"
   ],
   "note": "Positions may hold any pieces; make_move checks no rules of movement, so this covers every move it accepts."
  },
  {
   "property": "C76",
   "status": "proved",
   "theorems": [
    "ShogiCore.C76_key",
    "ShogiCore.C76_moves",
    "ShogiCore.C76_continuations",
    "ShogiCore.C76_refuted_sfen",
    "ShogiCore.C76_recurs"
   ],
   "note": ""
  },
  {
   "property": "C77",
   "status": "proved",
   "theorems": [
    "ShogiCore.C77_transpose",
    "ShogiCore.C77_alike",
    "ShogiCore.C77_equal",
    "ShogiCore.C77_any_order",
    "ShogiCore.C77_refuted_meeting"
   ],
   "note": "Intermediate lists of moves in the reordering need not be playable; captures and drops are included (hands count modulo 256 as in the code)."
  },
  {
   "property": "C78",
   "status": "proved",
   "theorems": [
    "ShogiCore.C78_values",
    "ShogiCore.C78_positions",
    "ShogiCore.C78_options",
    "ShogiCore.C78_layout",
    "ShogiCore.C78_texts",
    "ShogiCore.C78_position_texts",
    "ShogiCore.C78_enum_texts",
    "ShogiCore.C78_alike_across_types"
   ],
   "note": "core::fmt's builders are modelled from their documented behaviour (trusted, like core's Ord for slices). Flags such as width or {:x?} are out of scope."
  },
  {
   "property": "C79",
   "status": "proved",
   "theorems": [
    "ShogiCore.C79_consumer",
    "ShogiCore.C79_list",
    "ShogiCore.C79_fold",
    "ShogiCore.C79_collect",
    "ShogiCore.C79_nth",
    "ShogiCore.C79_min_max",
    "ShogiCore.C79_find",
    "ShogiCore.C79_cmp",
    "ShogiCore.C79_refuted_cmp",
    "ShogiCore.C79_fused"
   ],
   "note": "The provided methods of core's Iterator are modelled as consumers of next, from their documentation. Adaptors not listed are instances of C79_consumer."
  },
  {
   "property": "C80",
   "status": "proved",
   "theorems": [
    "ShogiCore.C80_strcmp",
    "ShogiCore.C80_compare",
    "ShogiCore.C80_c_test"
   ],
   "note": "The Position on the heap is a value here (C69 has handles). strcmp is modelled from its C definition with a bound on the bytes looked at. The model reads the whole struct before to_sfen_c writes, so C80_c_test does not use that the variables do not overlap."
  },
  {
   "property": "C81",
   "status": "proved",
   "theorems": [
    "ShogiCore.C81_well_defined",
    "ShogiCore.C81_accepts",
    "ShogiCore.C81_legal",
    "ShogiCore.C81_games",
    "ShogiCore.C81_refuted_enforced",
    "ShogiCore.C81_honest",
    "ShogiCore.C81_checked",
    "ShogiCore.C81_playable",
    "ShogiCore.C81_refuted_contract"
   ],
   "note": "The rules are a specification (Spec/Rules.lean); the crate contains none. They were compared with published numbers of legal moves (30, 900 and 25470 from the start; 593; 207 and 28684) by evaluation outside the project; the 30 are an example in Props/Rules.lean. Repetition, impasse and resignation are not part of them."
  },
  {
   "property": "C82",
   "status": "proved",
   "theorems": [
    "ShogiCore.C82_total",
    "ShogiCore.C82_move",
    "ShogiCore.C82_follow",
    "ShogiCore.C82_same",
    "ShogiCore.C82_determined",
    "ShogiCore.C82_transpose"
   ],
   "note": "The clients (Spec/Increment.lean) are programs over the crate's functions; the crate contains no such code. Counts in hand wrap as in Hand::added, so the update must use wrapping arithmetic for 256 pieces and more."
  },
  {
   "property": "C83",
   "status": "proved",
   "theorems": [
    "ShogiCore.C83_from",
    "ShogiCore.C83_to",
    "ShogiCore.C83_agree",
    "ShogiCore.C83_none",
    "ShogiCore.C83_perft",
    "ShogiCore.C83_brute",
    "ShogiCore.C83_rules"
   ],
   "note": "The promises are the structure LegalityChecker.Documented (Spec/Generate.lean), quoted from the comments of the trait; the clients are programs over the crate's functions. A documented checker for the rules of shogi exists (example in Props/Generate.lean)."
  },
  {
   "property": "C84",
   "status": "proved",
   "theorems": [
    "ShogiCore.C84_offset",
    "ShogiCore.C84_reach",
    "ShogiCore.C84_attacks",
    "ShogiCore.C84_attackers",
    "ShogiCore.C84_in_check",
    "ShogiCore.C84_turned"
   ],
   "note": "The clients are in Spec/Attack.lean; what they should find is Shogi.Reaches, Attacked and InCheck of Spec/Rules.lean, which know nothing of bitboards."
  },
  {
   "property": "C85",
   "status": "proved",
   "theorems": [
    "ShogiCore.C85_fits",
    "ShogiCore.C85_safe",
    "ShogiCore.C85_mated",
    "ShogiCore.C85_legal",
    "ShogiCore.C85_checker",
    "ShogiCore.C85_perft"
   ],
   "note": "The checker is PartialPosition.legal (Spec/Attack.lean), completed to an implementor of the trait by LegalityChecker.ofPredicate (Spec/Generate.lean); the rules are Spec/Rules.lean. It holds whatever the counters of the hands are, although make_move wraps them at 255."
  },
  {
   "property": "C86",
   "status": "proved",
   "theorems": [
    "ShogiCore.C86_status_alone",
    "ShogiCore.C86_explain"
   ],
   "note": "The client and the meaning of the reasons (Shogi.Wrong) are in Spec/Referee.lean. The comments on IllegalMoveKind do not say what to return if several reasons apply; the order chosen is stated in Spec/Referee.lean. A player who is not in check but has no legal move has not lost by this status."
  },
  {
   "property": "C87",
   "status": "proved",
   "theorems": [
    "ShogiCore.C87_total",
    "ShogiCore.C87_status",
    "ShogiCore.C87_checker",
    "ShogiCore.C87_checked",
    "ShogiCore.C87_playable",
    "ShogiCore.C87_make_move",
    "ShogiCore.C87_ends"
   ],
   "note": "Client: referee (Spec/Referee.lean); games: Shogi.Refereed. Perpetual check is deliberately not distinguished from other repetitions: PositionStatus has only Draw for it. The bound is far from sharp; it is there to show that repetition keys do identify positions well enough for games to end."
  },
  {
   "property": "C88",
   "status": "proved",
   "theorems": [
    "ShogiCore.C88_rules",
    "ShogiCore.C88_exists",
    "ShogiCore.C88_make_move",
    "ShogiCore.C88_attacks",
    "ShogiCore.C88_client",
    "ShogiCore.C88_line",
    "ShogiCore.C88_perft",
    "ShogiCore.C88_record",
    "ShogiCore.C88_status"
   ],
   "note": "The rules (C88_rules), the crate's make_move (C88_make_move) and the client of C84-C87 built on the crate (the other theorems). C60 is the part about make_move for the board turned round. C88_exists needs a move number other than zero because it builds the position from text."
  },
  {
   "property": "C89",
   "status": "proved",
   "theorems": [
    "ShogiCore.C89_values",
    "ShogiCore.C89_positions",
    "ShogiCore.C89_options",
    "ShogiCore.C89_numbers",
    "ShogiCore.C89_texts",
    "ShogiCore.C89_lines",
    "ShogiCore.C89_names",
    "ShogiCore.C89_unreadable"
   ],
   "note": "core's pad_integral, pad, padding and hexadecimal formatting are modelled from their documented behaviour; core itself is not in /repo. C89_unreadable shows that both conditions on the options are needed."
  },
  {
   "property": "C90",
   "status": "proved",
   "theorems": [
    "ShogiCore.C90_cargo",
    "ShogiCore.C90_closed",
    "ShogiCore.C90_additive",
    "ShogiCore.C90_needs",
    "ShogiCore.C90_std",
    "ShogiCore.C90_exports",
    "ShogiCore.C90_implementors",
    "ShogiCore.C90_links",
    "ShogiCore.C90_header"
   ],
   "note": "The table of items (308, with the items each mentions) is a transcription of the sources; mentions by method calls on values other than self and self.inner are not in it. What rustc and the linker ask (Links) is from their documentation. Refuted in part: adding alloc breaks implementations of LegalityChecker; the header declares functions a library without alloc lacks."
  },
  {
   "property": "C91",
   "status": "proved",
   "theorems": [
    "ShogiCore.C91_files",
    "ShogiCore.C91_can",
    "ShogiCore.C91_values",
    "ShogiCore.C91_included"
   ],
   "note": "The operating system is a relation: any write may be split, interrupted or refused. Rust's grammar is represented by a reader of the part of it that the files use (Spec/RustText.lean)."
  },
  {
   "property": "C92",
   "status": "proved",
   "theorems": [
    "ShogiCore.C92_refines",
    "ShogiCore.C92_contents",
    "ShogiCore.C92_unique",
    "ShogiCore.C92_verdict",
    "ShogiCore.C92_stores",
    "ShogiCore.C92_can",
    "ShogiCore.C92_pointers"
   ],
   "note": "What the compiler chooses (layout of Position and Move, what bytes stand for, growth of Vec) is a parameter; Vec::push is written down from its documentation. Functions on one handle do not overlap (&mut). C92_pointers assumes an aligned arena, which the code does not guarantee (C50_refuted)."
  },
  {
   "property": "C93",
   "status": "proved",
   "theorems": [
    "ShogiCore.C93_pop",
    "ShogiCore.C93_defined",
    "ShogiCore.C93_answers",
    "ShogiCore.C93_undefined",
    "ShogiCore.C93_complete"
   ],
   "note": "CCall.Defined and CCall.Answer (Spec/RawCall.lean) are arithmetic on the raw numbers. Pointers are assumed to point to a value of their type. C93_complete compares the list of calls with the prototypes of the header."
  },
  {
   "property": "C94",
   "status": "proved",
   "theorems": [
    "ShogiCore.C94_defined",
    "ShogiCore.C94_position",
    "ShogiCore.C94_refused",
    "ShogiCore.C94_alike",
    "ShogiCore.C94_text",
    "ShogiCore.C94_session"
   ],
   "note": "Stepwise simulation (Alike, Spec/RawCall.lean) between the run on the raw words and the run on the documented words; the second is a run of the API."
  },
  {
   "property": "C95",
   "status": "proved",
   "theorems": [
    "ShogiCore.C95_complete",
    "ShogiCore.C95_moves",
    "ShogiCore.C95_text",
    "ShogiCore.C95_debug",
    "ShogiCore.C95_release"
   ],
   "note": "C95_complete: the calls are exactly the functions of the header. Pointers are assumed to point to a value of their type with any bytes, apart from the player to move; memory allocation is trusted. Stray (Spec/RawAll.lean) is on raw numbers."
  },
  {
   "property": "C96",
   "status": "proved",
   "theorems": [
    "ShogiCore.C96_calls",
    "ShogiCore.C96_release",
    "ShogiCore.C96_moves",
    "ShogiCore.C96_text",
    "ShogiCore.C96_positions"
   ],
   "note": "Equality of the model's functions under two Profile instances. The structs hold any bytes apart from the player to move. Rust functions without a C counterpart are covered by C96_positions and C96_text as far as they make positions and texts; the other properties are each proved for every build."
  }
 ]
}