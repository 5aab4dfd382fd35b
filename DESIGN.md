# Formal model of rust-shogi-crates/shogi_core — design

The theorems are about a Lean 4 model of the Rust sources in `/repo`. The code is
never run; the tie between model and code is the file/line citation on every
definition plus the re-reading rules below.

## 1. Modelling conventions

* **Integers.** `u8/u16/u32/u64/u128/i8/i32` are `BitVec 8/16/32/64/128/8/32`, and `usize` is
  `BitVec Profile.bits`, 32 or 64 bits wide. Every theorem is for both widths. 16-bit targets are
  left out: `ARENA_SIZE` (no_std.rs:66) does not fit a `usize` there, so the C library does not
  compile. `wrapping_*` is the `BitVec` operation.
* **Outcomes.** Every Rust function that contains arithmetic, indexing, a
  `debug_assert!`, a `transmute`, a `NonZero::new_unchecked`, a `get_unchecked`
  or an `unreachable_unchecked` is modelled in the monad
  `Res α = ok a | panic | ub`. `panic` is a Rust panic (the workspace profile sets
  `panic = "abort"`, so there is no state after it); `ub` is undefined behaviour.
  "Never panics / no UB" is therefore a statement about results, not an assumption.
* **Build profile.** `class Profile` carries the width of `usize` and a Boolean: overflow checks
  and debug assertions on (dev) or off (release). `+ - * << >>` go through checked operations
  that panic on overflow when the flag is on and wrap when it is off. Every theorem
  is for an arbitrary `Profile`, hence for both builds and both widths.
* **`&mut self`** becomes "returns the new value". A function that can fail after
  taking `&mut self` returns the possibly modified value *together with* the
  verdict, so that "unmodified on failure" is a theorem and not a modelling choice.
* **Values with private representation** (`Square`, `Piece`, `CompactMove`,
  `Bitboard`, `Hand`, `PartialPosition`) are modelled by their raw representation.
  `Valid` predicates are separate; that the API only makes valid values is a theorem
  (C48), except where it is false (C22).
* **`core::fmt::Write` sinks** are an arbitrary state type `W` with an arbitrary
  function `W → bytes → Res (W × success flag)`: a sink may fail, panic or be UB.
  `String` is the sink `List U8` that appends and never fails.
* **Memory** (raw pointers in `to_sfen_c`, `memcpy`, …) is a partial map from natural
  number addresses to bytes; `none` is an address the program may not touch, and
  touching it is `ub`. Addresses do not wrap.
* **Threads** (allocator): an interleaving transition system at the granularity of
  the atomic load and the weak compare-exchange of `fetch_update`, with spurious
  failures. All accesses are `SeqCst` on one location, so interleaving semantics is
  exact for the counter.
* **Client programs** (C48): a list of values a caller holds; a step is one call of one
  function of the crate on held values (an inductive relation with one constructor per
  function, `Spec/Client.lean`); the documented contract of an `unsafe` function is a
  premise of its constructor.
* **Abstract machine** (C53): a record of functions (board, hands, side, unbounded
  ply) with no bitboards, king squares, last move or fixed-width counters
  (`Spec/Machine.lean`).

Layout: `Verif/Model/*` (the code, function by function), `Verif/Spec/*` (small
independent specifications), `Verif/Lemmas/*` (proof machinery), `Verif/Props/*`
(one theorem group per property, with non-vacuity examples next to them).
Everything is in namespace `ShogiCore`; property theorems are `ShogiCore.Cnn_*`.

## 2. What is modelled

| file in /repo | model | not modelled |
|---|---|---|
| shogi_core/src/square.rs | Model/Square.lean: everything | — |
| shogi_core/src/color.rs | Model/Color.lean: everything | — |
| shogi_core/src/piece_kind.rs | Model/PieceKind.lean: everything incl. `experimental` | — |
| shogi_core/src/piece.rs | Model/Piece.lean: everything incl. `experimental` | — |
| shogi_core/src/hand.rs | Model/Hand.lean: everything; Model/Refs.lean: `as_u64` on either byte order | — |
| shogi_core/src/mv.rs | Model/Move.lean, Ord/Hash in Model/Derive.lean and Model/PartialOrd.lean | — |
| shogi_core/src/bitboard.rs | Model/Bitboard.lean: everything; Model/Refs.lean: operators on references; Model/Iter.lean: the provided methods of `Iterator` | — |
| shogi_core/src/common.rs, to_usi.rs | Model/Common.lean | the UTF-8 validity of `str` beyond ASCII |
| shogi_core/src/position.rs | Model/Position.lean, wrappers in Model/CApi.lean; Model/Boxed.lean: boxed positions as values at their addresses; Model/Recorder.lean: with the blocks and capacities of `moves`; Model/Bytes.lean: as bytes in the arena | loads are done at once when a function on a handle starts (nobody else may store there: `&mut`) |
| shogi_core/src/legality.rs | Model/Legality.lean: provided methods; required methods are arbitrary functions | implementors (there are none in the repository) |
| shogi_core/src/game_resolution.rs, illegal_move_kind.rs | Model/GameResolution.lean: everything | — |
| shogi_core/src/annotated_derive.rs | Model/Derive.lean, Model/PartialOrd.lean: each macro at each use (`OptionPieceKind`, piece_kind.rs:307-319, has no use: it implements neither `Eq` nor `Ord` nor `Hash`); Model/Debug.lean: every derived `Debug` as the calls it makes, with `core::fmt`'s builders, `PadAdapter`, integer formatting and all options of a `Formatter` | — (`#[cfg]`: Model/Features.lean; elsewhere all features are on) |
| shogi_core/build.rs | Model/BuildConsts.lean: the generating loops as (name, value) lists; Model/BuildScript.lean: the whole script with its files and output | paths on systems whose separator is not `/` |
| shogi_core_c/src/no_std.rs | Model/NoStd.lean, Model/Mem.lean, Model/Heap.lean | panic/alloc-error handlers (`loop {}`), codegen turning the loops into calls of themselves |
| shogi_core_c/src/lib.rs, shogi_core/src/lib.rs, Cargo.toml of both | Model/Features.lean: features, every `#[cfg]`, the items and what they mention | `size_of` tests; `cfg(bench)`, `cfg(docsrs)` |
| include/shogi_core.h | Model/Header.lean: all declarations; Model/Layout.lean: bytes of the structs; Model/RawCall.lean, Model/RawAll.lean: calls with raw numbers as arguments | comments; the registers of particular calling conventions |
| c_tests/position.c | Model/CTest.lean: `main` | the failure message of `assert` |
| cbindgen.toml, Makefile | — | everything |

Simplifications, all stated at the definitions too: the two cells of `Bitboard` are two
fields (only literal indices occur); loop indices are `Nat` with an over-reporting
`nsub`; `Square::all`, `all_hand_pieces` are the lists the iterators yield; a `for`
loop over a `Bitboard` is `iterate` with explicit fuel and "did not finish" as a result;
Ord/Hash of arrays, tuples and `Vec` follow their documented lexicographic/sequential
definitions.

## 3. Per property plan

| id | modelled | proof method |
|----|----------|--------------|
| C01–C04 | square.rs | arithmetic on `toNat`; finite tables lifted through `Fin` where the domain is the 81 squares / 256 bytes |
| C05 | build.rs generator loops as functions producing (name, value) pairs | whole finite table |
| C06–C08 | piece_kind.rs, piece.rs, Option* types | whole finite tables |
| C09–C11 | hand.rs | induction over operation lists; refinement to `Kind → Nat` |
| C12–C13 | mv.rs packing with BitVec shifts | bit-level reasoning, no enumeration of pairs |
| C14 | ToUsi of Move/Square/PieceKind; independent parser in Spec | parser inverts writer |
| C15–C17,C19–C24 | bitboard.rs | bit extensionality (`getLsbD`) |
| C18 | pop / Iterator | arithmetic of `x & (x-1)`, then induction on the number of members |
| C22 | shift_right | **code violates the property**: exact characterisation plus refutation by witness |
| C25–C29 | position.rs | invariant by induction over arbitrary API histories, then refinement to a board-function specification |
| C30,C31 | make_move histories from startpos | counting invariant over the 81 squares; king invariant; stale-king refutation |
| C32–C34 | Position, ply, compact moves | induction over move lists |
| C35 | startpos | finite table against an independent diagram |
| C36 | to_sfen and an independent parser | parser inverts writer row by row |
| C37 | length of to_sfen | length lemmas + conservation (C30); witness against the documented bound for arbitrary positions |
| C38 | Bridge writer over byte memory | induction over chunks |
| C39–C41 | common.rs, ToUsi | chunk-list semantics; decimal denotation |
| C42,C43 | legality.rs: required methods are parameters (a structure of functions) | case analysis; induction over games |
| C44–C46 | the ord/hash macros instantiated per type | `Ordering` laws; refutation witness for PartialPosition consistency |
| C47 | Game/PartialGame | induction over operations |
| C48 | client programs: an inductive closure of API-obtainable values | induction; every API function shown `ok` on valid values |
| C49,C50 | no_std.rs allocator as interleaving system | invariant over all schedules; base-alignment refutation |
| C51 | no_std.rs memory functions over `address → byte` | induction over n |
| C52 | the `extern "C"` wrappers | unfolding + encodings |
| C53 | make_move against an abstract machine | simulation relation, induction over move lists |
| C54–C56 | Position records, observers, reversibility | C14 + C36 + C33; case analysis of the effect (C29) |
| C57,C58 | algebraic laws of bitboards | from the membership theorems C15–C23 by extensionality |
| C59 | loops over a position's bitboards | C18 + C25 |
| C60 | 180-degree symmetry | relational (two-run) reasoning from C28/C29 |
| C61 | `==` along a game | C32 (move number); non-interference of the move number through make_move; induction on the number of repetitions for sharpness |
| C62 | Spec/Setup.lean: answers of all observers and when they fit together | invariant `Hist` over all call sequences (the two-kings clause is preserved by every single placement); for the converse, play the last move first, fill the board, then place and replace kings in the right order |
| C63 | Spec/Edit.lean: programs of edits, last write wins | induction over the program; C62 for equality of hidden fields |
| C64,C65 | Model/Heap.lean: the arena's bytes; Spec/Heap.lean: stores by owners interleaved with allocator steps. `GlobalAlloc::realloc`/`alloc_zeroed` are `core`'s provided methods, written down from their documentation | induction over the run with C49; sum of granted sizes as an invariant; C51 for the copies |
| C66 | Spec/Wire.lean: a sender and a receiver as client programs | word splitting, C14 and C36 for the parsers, C63 for the set-up, C28/C54 for the moves, C62 for hidden fields |
| C67 | Spec/Progress.lean: steps of one call, runs in which no call starts | a budget that every own step lowers and no foreign step raises; a potential (sum over open calls plus the square of their number) for the joint bound |
| C68 | Model/Layout.lean: the layout rules, the bytes of each field, the functions that take pointers; Spec/CStruct.lean: C programs | finite table for the four platforms; field-wise overlays of memory; invariant relating memory and values; C38 and C51 for buffers and copies |
| C69 | Model/Boxed.lean: handles, created from returned blocks, over the allocator of C49; Spec/Boxed.lean: the list of events | invariant of runs; C49 for disjointness, C33/C34 for the value, C64 for the bound, for every layout an explicit run that fills the arena |
| C70 | the comparisons of Model/Derive.lean; Spec/OrderKey.lean: keys read off through observers, dictionary order | self-delimiting keys (`Codes`), mixed-radix comparison, highest differing bit for bitboards |
| C71 | Model/Recorder.lean: the buffers of `moves` over the allocator of C49; Spec/Recorder.lean: buffers needed for n moves | refinement to C69; invariant equating buffers and accepted moves; C64 for the budget; construction of a run for any game that fits |
| C72 | Model/Header.lean: declarations of the header, signatures and representations of the crate; Spec/Header.lean: how values are passed, typing of C expressions | comparison of the complete tables for the four platforms; induction on typing derivations for what cannot be called |
| C73 | PartialPosition as a plain struct; Spec/RawStruct.lean: recipe over the members as bytes, damaged twins | equivalence with C62; relational proof of make_move over all structs (damage does not spread); totality exactly for harmless bytes |
| C74 | PartialPosition setters + make_move; Spec/Takeback.lean: calls noted before a move, relation `Search` of a program that makes and takes back | equality of all members after a move from positions alike but for the last move; induction over the search |
| C75 | make_move; Spec/Decode.lean: reading a move off two diagrams | effect of accepted moves on each square; induction over the game |
| C76 | to_sfen_owned, make_move; Spec/Decode.lean: SFEN without the move number, same position for repetition | text of the parts without the number; injectivity from C36 at equal move numbers; induction over the moves |
| C77 | make_move; Spec/Reorder.lean: squares touched by a move, same order on every square | moves as total functions on (board, hands mod 256) that commute when apart; equal projections imply exchange of neighbours; king squares from C74 |
| C78 | all derived Debug impls as trees, core::fmt's compact and pretty writers; Spec/Debug.lean | layout removed; a reader of the remaining text (mutual induction on trees, self-delimiting values), injective trees per type |
| C79 | `next` as a transition, consumers as state machines over it (Model/Iter.lean); Spec/Iter.lean: the ascending list, `SameRun` | simulation of the bitboard by its list, by induction on the number of calls |
| C80 | c_tests/position.c as calls on memory (Model/CTest.lean), strcmp | C68, C38, C51 composed along the program; SFEN equal iff views equal |
| C81 | rules of shogi on the abstract machine (Spec/Rules.lean) | invariants of games by the rules (the player not to move is not in check, no two pawns, no stuck piece); refinement C53; contract of C43 |
| C82 | client programs over piece_at, hand, promote, unpromote, all (Spec/Increment.lean) | sums over duplicate-free lists changed at one or two places; C29 for the places; indicator values for the converse |
| C83 | trait LegalityChecker; Spec/Generate.lean: documented promises, clients that generate and count | loops over duplicate-free lists with disjoint results; C79/C59 for bitboard loops, C28 for the shape of legal moves, C81 for the rules |
| C84 | client programs over Bitboard and PartialPosition (Spec/Attack.lean) | membership lemma per operation (C18-C22) on coordinates; induction along rays; C25 for the bitboards of a position; turning by C19/C57 |
| C85 | client LegalityChecker over the crate's functions (Spec/Attack.lean) | each test of the client against the rules (C84, C04, C23, C26, C09); effect of make_move on the board and the opponent's hand (C29); C83 for documented promises and counting |
| C86 | client `explain`, `status_alone` (Spec/Referee.lean) | the reasons exclude each other; case analysis along the client with C84, C85 |
| C87 | client `referee` (Spec/Referee.lean) | induction along the record; keys correspond to positions (C76); a mated position cannot recur; pigeonhole for the bound |
| C88 | `make_move`, observers; the client of C84–C87 (Spec/Symmetry.lean) | the rules are equivariant under the symmetries of the board (Lemmas/Symmetry.lean); carried over to the client with C84–C87; lines of moves correspond one to one |
| C89 | derived `Debug` with any `Formatter` options (Spec/Debug.lean) | `pad_integral` and `pad` write a number or word surrounded by fill; removing fill and layout leaves the tree, as in C78 |
| C90 | Cargo features, every `#[cfg]`, the items and what they mention (Model/Features.lean), the header's guards | conditions without negation are monotone; closure of the table, then induction over chains of mentions |
| C91 | build.rs with its files and standard output (Model/BuildScript.lean), the two `include!` | an algebra of programs that append to one file; a reader of the generated Rust |
| C92 | position.rs:101-141, 315-335 over the bytes of the arena (Model/Bytes.lean), for any compiler | each byte has an owner; simulation by the positions of C71 with the stores still to be done |
| C93 | all `extern "C"` functions with arguments by value, called with raw numbers (Model/RawCall.lean) | whole-domain tables for one-byte arguments, bit arithmetic for bitboards, cases for the rest |
| C94 | `PartialPosition_make_compact_move`, `Position_make_compact_move` called with raw words (Model/RawCall.lean) | simulation relation between codes of the same piece, induction on the series of words |
| C95 | all functions of the header (Model/RawAll.lean), `make_move` and `to_sfen` on arbitrary bytes | no-panic calculus over `Res` and `FmtM`, whole-domain tables for one-byte arguments, C93 and C94 for the rest |
| C96 | all functions of the header, `make_move`, `piece_set`, `to_sfen` under two builds (Model/RawAll.lean) | equality of each step under two profiles, uniqueness of the answers of C93, no panics by C95 |

## 4. Findings about the code

Places where the code does not do what its documentation or a reasonable caller expects.
Each is a theorem.

* **`Bitboard::shift_right` by 0 or 1 leaves a stray bit** 63 of the first word when 8a
  (delta 0) or 9a (delta 1) is in the set, breaking `==`, `count`, `pop` and iteration:
  `C22_refuted`, `C22_refuted_pop`, `C48_refuted_shift_right`; exact condition
  `C22_canonical_iff`.
* **Memory of the no_std library is never given back**: all requests ever granted fit into
  128 KiB together, so creating and destroying positions in a loop fails eventually:
  `C64_budget`, `C64_exhaustion`.
* **Allocation is not wait-free on a machine whose `compare_exchange_weak` may fail spuriously
  without bound**: `C67_refuted_spurious`; otherwise it is: `C67_wait_free`.
* **`memcmp` on two `PartialPosition` structs may report a difference between equal positions**
  (padding): `C68_refuted_memcmp`; it never misses one: `C68_memcmp`.
* **`Position_destruct` gives no memory back in the no_std library**: after 172 calls of `Position_startpos` (175 on 32-bit targets)
  (fewer if other allocations happen) the next one never returns, even if no position is live:
  `C69_exhaustion`, `C69_refuted_release`.
* **A position whose move number has wrapped to 0 cannot be restored from its SFEN**
  with the crate's own setters: `C66_refuted_ply`.
* **The no_std allocator only aligns offsets**; the arena is a byte array of alignment 1:
  `C50_refuted`, exact condition `C50_address`.
* **`king_position` is stale** after `piece_set(sq, None)` removes a king: `C31_refuted`,
  exact behaviour `C31_piece_set`. Through it **`Ord` is inconsistent with `Eq`** on
  `PartialPosition`: `C44_refuted`.
* **The 139-byte bound documented for `to_sfen_c` is false** for positions built with
  `piece_set`/hand edits (236 are needed): `C37_refuted`; for games 137 suffice.
* **ply wraps** from 65535 to 0 (a value `ply_set` refuses): `C32_*`, and **hand counts
  wrap** at 255 (documented): `C10_added`.
* **`Position`'s deprecated `piece_set`/`hand_of_a_player_mut`** desynchronise `inner` from
  `moves`: `C33_deprecated_refuted`.
* **`LegalityChecker::make_move` returns `Ok(())` without playing** the move if the
  implementor's `is_legal` is wrong (release; it panics in debug): `C43_contract_needed`.
* **`==` never detects a repetition** within 65535 moves, since it compares the move number:
  `C61_never_equal`, `C61_repetition`; exact: `C61_sharp`.
* **`==` depends on the order of setting up** if a colour gets two kings:
  `C63_refuted_two_kings`.
* **`Piece::all()` is not sorted** in the order of `Piece` (every other enumeration is), and
  **`CompactMove` is not ordered as `Move`**, nor `Bitboard` as its `to_u128`:
  `C70_refuted_pieces`, `C70_refuted_compact`, `C70_refuted_u128`.
* **A position of the no_std library can record only so many moves**: outgrown buffers are never
  given back, so with `Vec`'s doubling the move after the 16384th (8192nd if a `Move` takes 4 bytes)
  never returns: `C71_doubling`, `C71_longest`; for any growth: `C71_any_growth`.
* **The C header makes ten functions useless to C programs**: `Square_from_u8` and `Square_shift`
  are declared with an incomplete result type, and nothing yields a `Game` or `PartialGame` for
  the eight functions on them; without `DEFINE_ALLOC` it still declares functions the library then
  lacks: `C72_prototypes`, `C72_callable`, `C72_link`.
* **A `PartialPosition` filled in by a C program is never checked or repaired**: wrong bitboards stay
  wrong outside the squares moved over (`C73_not_repaired`), a board byte whose low four bits are 0
  or 15 makes some move and the SFEN undefined behaviour (`C73_moves_exact`, `C73_text_exact`), and
  a nonzero eighth byte of a hand drops the `-` from the SFEN (`C73_eighth_byte`).  The header
  documents none of this ("TODO: describe exactly when a position is considered valid");
  `C73_recipe` is such a description.
* **Taking moves back with the setters works, except for `last_move` (which cannot be set), the move
  number 0 (`ply_set` takes a `NonZeroU16`, while `make_move` wraps to 0) and kings that
  `king_position` does not know of** (`C74_search`, `C74_refuted_eq`, `C74_refuted_ply`,
  `C74_refuted_king`).  A search that compares positions with `==` after taking back sees a change.
* `==` and the SFEN cannot be used to detect repetitions; the SFEN without its last word can
  (`C76_key`, `C76_refuted_sfen`, `C61_never_equal`).
* README.md:83 says `Debug` is always implemented, and README.md:68 the same of `Clone`, but `OptionPieceKind`
  (piece_kind.rs:317-318) derives nothing: it can be neither printed nor compared nor copied.  For all
  other types `{:?}` is faithful (`C78_values`, `C78_positions`), though it does not name enums
  (`C78_alike_across_types`).
* `a.cmp(b)` on two bitboards compiles but is not `Ord::cmp`: `Bitboard` is an `Iterator`, and method
  lookup by value finds `Iterator::cmp`, a different order (`C79_refuted_cmp`); `a < b` and sorting use `Ord`.
* **The contract of `LegalityChecker::is_legal` needs more than the rules**: where a king can be captured
  (positions set up by hand), capturing it is legal by the rules of single moves but `make_move` rejects it, so
  a checker must call nothing legal there: `C81_refuted_contract`; otherwise rules and contract agree:
  `C81_honest`.
* `{:.0?}` of a `Move` does not show whether it promotes, and with a digit as fill character two
  squares can print alike (`C89_unreadable`).
* Turning on `alloc` adds two required methods to `LegalityChecker`, so it breaks every implementation
  written without it, although cargo unites the features of all dependants (`C90_implementors`).
* The C library without `alloc` and `std` does not link beside a package that turns on `alloc` in
  shogi_core: there is no allocator (`C90_links`).
* `include/shogi_core.h` guards the types `Game` and `Position` with `DEFINE_ALLOC` but not the
  functions on them, which a library without `alloc` lacks (`C90_header`, `C72_link`).
* With an empty `OUT_DIR` (which cargo never sets) build.rs would write into the current directory and
  lib.rs look in the root (`C91_included`).
* Raw codes from C (C93): `Piece(NonZeroU8)` is documented as 1-14 and 17-30, but any byte with low four bits
  1-14 is accepted, and everything from 16 on is taken for White's piece (33 acts as White's pawn).
  `CompactMove_drop` accepts every nonzero piece byte; from 128 on the move then claims to be promoting. `Bitboard_pop` with the unused top bit of the
  first word set first panics in a debug build, and in a release build hands out square 63, which is not in
  the set; unused bits of the second word are undefined behaviour. `Bitboard_flip` takes that top bit for
  square 64, `Bitboard_count` counts all unused bits, `Bitboard_not` drops them. `Hand_add` on a count of 255 gives 0.
* Raw words as moves (C94): dropping with an undocumented code such as 33 is accepted as White's pawn, and the board
  then holds 33 rather than 17. The position prints the same text as with the documented word and answers all
  later moves alike, but it is not equal to it (the derived `==` compares the bytes), and `piece_at` hands
  33 back to the caller. A king cannot get onto the board this way.
* Panics (C95): the README's claim that functions which do not allocate do not panic holds for the C library in release
  builds whatever the arguments. A debug build of it panics (and aborts) on square numbers above 81 and on `Bitboard_pop` of a
  stray bit 63, where a release build is undefined or answers square 63; no other argument and no contents of
  a position can make it panic.
* A drop's USI text omits the colour of the piece (by format): `C14_forget_eq_iff`.
* Not theorems: `Game`/`PartialGame` can only hold the default position (no API sets
  another); no_std.rs provides no `memmove`.

## 5. Testing the theorems against wrong programs

`seeded/LOG.jsonl` records realistic faults inserted one at a time into a scratch copy of
the model. There are two kinds of run, and the log keeps their results apart.

* **Witness run** (made for every fault). With proofs replaced by `sorry`, a concrete input
  derives `False` from the statement of the property theorem, so that statement is false of
  the faulty model. The theorem is named in `refuted_by_witness`. Where two are named (U and T
  faults, B18), the witness uses both, so it shows only that at least one of them is false. Nothing is rebuilt with
  the real proofs here: that the proof would fail is an inference.
* **Rebuild** (made where `rebuilt` is true: 415 of the 443 faults; the other 28 are
  among AP, AQ and AR, against C93 to C96, and have only a witness run). The
  original proofs are built against the faulty model. `theorems_failed` lists the
  declarations in which an error was reported, and is `null` if no rebuild was made.
  Modules importing a failed one are not built, so `downstream_of_failed` is *computed* from
  the dependency graph of the correct model. A proof may also fail just because it is sensitive to the shape of the
  code, so a rebuild alone does not show that a statement is strong enough.

Versions of the log before this one put the witness theorem in `theorems_failed` for faults
that had not been rebuilt, and mixed witness and computed names into it for those that had.

As a control every witness is also run against the correct model, where it must not go
through (`witness_fails_on_correct_model`). It is `null` for A03 and L04: there the witness
stops for a reason that need not be the fault (A03 changes the arity of a constructor), so the
control says nothing.

Every property has at least one fault with a witness against one of its theorems. Y14 (moves in
reverse order) shows a limit of C54: the record is reversed with the list, so C54 stays true and
it is C33 that rejects the fault. AB12 and AB13 (two parameters of the same size change places in
the C header) would have survived the first version of C72_prototypes, which compared only how
parameters are passed; it now compares their names and types as well. AF07 (the complement through a
reference keeps the unused bits) survived the first version of C15_references, which spoke of members
only; it now also says that the result equals that of the operator on values. AQ13 (zero is
taken for a square) leaves C93 true, because every function checks the range of its squares itself; it is
C95 that rejects it, since a debug build then panics on zero. No other fault led to a
tightened statement, and no fault survives all theorems as they stand.

## 6. Trusted base

* Lean 4.33.0 kernel (all proofs re-checked by `vcheck`; no `sorry`, no `native_decide`,
  no `bv_decide`, no `axiom` declarations).
* The reading of Rust into the model as cited, and the semantics given in
  `Model/Prelude.lean`, `Model/Mem.lean`, `Model/Common.lean`, `Model/Derive.lean`, `Model/PartialOrd.lean` to the
  language and to core intrinsics (`trailing_zeros`, `count_ones`, `reverse_bits`,
  `swap_bytes`, wrapping arithmetic, slice/array/tuple `Ord` and `Hash`,
  `AtomicUsize::fetch_update`).
* Not covered: memory layout claims other than C68 (`size_of`, niche elision), out-of-memory
  behaviour other than C64, C69, C71, performance, machine code, soundness of `&`/`&mut` aliasing in C callers.

Axioms used (from `#print axioms` on every theorem in MANIFEST.json):

* **none** (7): C06_promote_spec, C08_game_resolution, C47_any_state, C52_decodable,
  C52_last_compact_move, C68_layout, C70_enums.
* **propext** (22): C05_square_consts_complete, C06_inverse, C06_promote_none,
  C06_unpromote_none, C07_bytes, C07_array_index, C08_square, C08_piece, C08_piece_kind,
  C08_piece_kind_from_u8, C09_hand_pieces, C13_move_accessors, C44_laws, C44_partial_cmp,
  C48_contracts_exact, C52_Piece_new, C70_refuted_pieces, C72_prototypes, C72_structs,
  C72_constants, C72_names, C72_link.
* **propext, Quot.sound** (94): C02_from_u8_iff, C02_roundtrip, C02_from_u8_index,
  C04_flip_involutive, C04_relative, C06_piece, C06_piece_inverse, C07_new, C07_to_parts,
  C07_all, C07_kind_color, C08_compact_move, C08_illegal_move_kind,
  C08_illegal_move_kind_from_u8, C09_total, C09_count_mod, C09_count, C09_verdicts, C09_frame,
  C10_added, C10_remove_added, C10_add_removed, C10_wrappers, C11_eq_iff, C11_seven,
  C11_any_endianness, C12_constructors, C14_forget_eq_iff, C15_assign_square_ref_eq,
  C23_roundtrip, C24_u128, C24_u128_swapped, C24_swap_swap, C24_bytes, C32_setters,
  C32_hand_mut, C34_all, C35_default, C35_empty, C39_square, C42_finished, C42_in_progress,
  C42_only_inner, C43_make_move, C44_order, C44_consistent, C44_max_min, C45_hash,
  C47_partial_game, C47_game, C49_permanent, C51_memcpy, C51_memcpy_downwards, C51_memcpy_ub,
  C51_memset, C51_bzero, C51_memcmp, C51_memcmp_sign, C52_Square_from_u8_unchecked,
  C52_PieceKind, C52_PieceKind_from_u8_unchecked, C52_Piece, C52_Hand, C52_piece_at,
  C52_startpos, C53_unique, C60_flip, C61_ply_inert, C61_sharp, C67_all_finish,
  C70_squares_pieces, C70_hands, C70_hands_monotone, C70_options, C70_compact_agrees,
  C70_refuted_compact, C70_refuted_u128, C71_refines, C72_enumerators, C72_callable,
  C73_harmless_kept, C80_strcmp, C90_cargo, C90_closed, C90_additive, C90_needs, C90_std,
  C90_exports, C90_implementors, C90_links, C90_header, C92_unique, C93_complete, C95_complete.
* **propext, Classical.choice, Quot.sound** (359): every other theorem in MANIFEST.json.
