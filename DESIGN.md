# Formal model of mewmew/float in Lean 4

`/repo` is a Go library that encodes and decodes floating-point formats (binary16, binary128, x86 80-bit, PowerPC double-double,
bfloat16 decoding), plus `IsExact16`, `IsExact32` and `IsExact64`, which rest on a private copy of an old `strconv` (integer and
float formatting).

## Layout

* `lean/Verif/Model/`: the model, one Lean function per Go function. Each definition cites the file and lines it models, and states
  its simplifications.
* `lean/Verif/Spec/`: specifications, written without reference to the model: the value of a bit pattern by the formulas of IEEE 754
  (`Format.decode`), correct rounding by quantification over all numbers of a format (`Format.RoundsTo`), values of digit strings,
  shapes of texts, shortest decimals, numerals.
* `lean/Verif/Proofs/`: lemmas.
* `lean/Verif/Props/`: the property theorems, named after the property (`C42_...`). Beside them are `example`s that meet the
  hypotheses. A claim that is false of the code is kept as `Cnn_full : Prop` and refuted by `Cnn_false...`; what holds of it has the
  suffix `_partial`, with the missing part named in its comment.
* `lean/Verif/Checks/`: the rows of the tables in the tests of `/repo`, run on the model. These are tests of the model, not proofs: all 189
  rows but one (see Findings) come out as the tests expect.
* `properties.jsonl`, `MANIFEST.json`: the properties and the theorems that settle them.
* `seeded/LOG.jsonl`: wrong programs tried against the theorems. Each entry is an edit of the model in a scratch copy, the theorems
  whose proofs then fail (directly or through a lemma), and what was tightened.
  A theorem listed as failed is one whose proof, or the proof of a lemma it uses, no longer checks. That the statement is false of the
  edited program was judged by reading, as given under `claim_broken`, and not proved; the notes say where it was not settled.

## Modelling decisions

* Machine words are `BitVec n`, with wrapping arithmetic as in Go. Shifts by the width or more give 0, as in Go.
* `int` is `Int`, without overflow. `Model/IntSize` models the functions that compute with `int` a second time, with `W` bits and wrapping
  around, and the panic of `make`; C78 shows that the two models agree but for the cases it names. `uint`, where its size matters (`decimal.go`: shifts, `maxShift`), is a parameter `W`, 32 or 64. Go's 64-bit `int` is
  assumed where the code converts a `uint64` to `int` (`binary128.Exp`); `C13_int32` says what happens with 32 bits.
* A panic is `Except.error` with a constructor of `Panic` that says which. Index and slice expressions are checked (`Panic.index`), so
  "returns" theorems include that no index is out of range.
* A method that mutates through a pointer returns the new value. For `float128ppc.NewFromBig`, which modifies its argument, the new
  argument is part of the result. `Model/Heap` models the functions that take or return a `*big.Float` a second time, with pointers and a
  memory; C80 shows that the two models agree and which variables are written. Such a computation is a tree
  of single reads, writes and allocations, so that `Model/Goroutines` can interleave several of them.
* Loops are structural recursions, with fuel where Go's loop has no structural bound. Running out of fuel is `Panic.diverge`, and the
  totality theorems show that it does not happen.
* Texts are `List Char`; Go's `[]byte` buffers with a length are lists, and a function that appends returns the text appended. `Model/Slices`
  models these functions a second time, with slices as windows into arrays and `append` as Go defines it; C81 shows that the two models agree.
* The package variable `optimize` of `internal/strconv` is a parameter; theorems are for both values.

## Not modelled

* Of the two programs `gen.go` that print test tables: the random numbers, the algorithm of `sort.Slice` (`Model/GenSort` has the
  comparison it is given), the files and the template, which copies the lines. `Model/Gen` has the fields of a row, `Model/GenRow` its text,
  `Spec/GoSource` how Go reads it, `Model/BigText` the 35 digits and how the test reads them (for decimal numbers). The hand-written tests are run
  on the model in `Checks/`.
* Memory exhaustion, apart from the buffer that `FormatFloat` allocates (C78). `FormatFloat(0, 'e', MaxInt, 64)`, whose loop does not end.
  Overflow of `int` outside `Model/IntSize`: in the `Big` methods, where exponents are fields of at most 15 bits, and in `AssignDecimal`, which the
  library does not call.
* Sharing of byte slices inside a function (the digits of a `decimalSlice`, the array of `formatBits`): they are local and values in the
  model. For the slices that the `append` functions are given see `Model/Slices` and C81. Sharing of `*big.Float` is modelled
  (`Model/Heap`, C80), except that the words of a mantissa are taken to belong to one number, as `math/big` sees to.
* Signalling NaNs: moving a `float64` in a register of some processors makes it quiet; the model moves bits.
* Exponents of `big.Float` beyond `MaxExp` and `MinExp`: the model of `math/big` has the check where the library uses it (`setExpAndRound`).
* Concurrency: `Model/Goroutines` interleaves calls of the functions that work with `*big.Float` (C83). One step reads or writes a whole number;
  goroutines do not communicate. The other functions share no memory but the package variables, which nothing assigns.

## Trusted base

* The Lean 4.33.0 kernel, and the axioms listed at the end.
* The reading of the Go code, and of Go's semantics of fixed-width integers, shifts, conversions, slices and `switch`.
* The standard library, which is *modelled* from its documentation and published implementation (its source is not in the sandbox):
  `math/big.Float` (`round`, `SetPrec`, `SetMode`, `NewFloat`, `MantExp`, `SetMantExp`, `Neg`, `IsInt`, `IsInf`, `Signbit`, `Cmp`, `Uint64`,
  `Int`, `Add`, `Sub`, `Mul`, `Quo`, `Float32`, `Float64`, `Parse` for the texts the code builds, `Text('e', n)`), `math.Float64bits` and its relatives,
  conversions between `float32` and `float64`, `fmt.Sprintf` for the verbs used, `strings.Index`. Files: `Model/BigFloat.lean`,
  `Model/Math.lean`, `Model/Text.lean`, `Model/BigText.lean`, `Model/BigMul.lean`. C91 proves that the definitions for `big.Float` meet its documentation: correct rounding
  in all six modes, true accuracies, the limits of the exponent.

## Findings

The theorems refute these documented or expected behaviours; each has a concrete input in the theorem named.

* `binary16.NewFromFloat64`: wrong for subnormal results and on overflow (`C06_false`, `C09_false`, `C10_false`): finite numbers become NaN in
  [65600, 131072).
* `binary16.NewFromBig`, `binary128.NewFromBig`, `float80x86.NewFromBig` truncate instead of rounding, report accuracies with the wrong sign
  for negative numbers, and wrap around on overflow (`C07_false`, `C08_false`, `C18_false*`, `C24_false*`).
* `float128ppc`: `NegInf` is not the negative infinity, `Big` panics for opposite infinities, `NewFromBig` modifies its argument, panics near the
  largest double, and always reports `Exact` (`C27_false`, `C29_false`, `C30_partial`, `C31_false*`, `C32_false`, `C50_false*`).
* `float128ppc.Float64` rounds twice: for a normalised pair it is not always the high half, and can be infinite (`C69_float128ppc_high`,
  `C69_float128ppc_overflow`).
* `float128ppc_test.go:16` expects a pair with a sum of 1048 bits to survive `Big` and `NewFromBig`, which work with 106 bits; it cannot
  (`C62_float128ppc_test_row`).
* `IsExact16(8210)` is true, `IsExact64(0.1)`-like answers are incomplete, infinities panic (`C34_false`, `C35_false*`, `C36_infinite`).
* `trimZeros` turns `-0e+00` into a text of another number (`C38`).
* `FormatFloat` with precision -1: the exact path does not always print the closest shortest decimal (`C51_false`), and an unknown format
  letter with precision 0 panics (`C52_false`).
* `FormatFloat(x, 'e', MaxInt, 64)` panics with an index out of range for every nonzero finite `x` (`C78_largest`), and on 32 bits `NewFromBig`
  takes the largest numbers for tiny ones (`C78_false_big32`).
* `AssignDecimal` reports success for wrong results in four situations (`C49_false_*`).

## Properties

For each property: what is modelled, how it is proved, and what is missing. Status is as in `MANIFEST.json`: *proved* means the
whole statement; *partial* means that the whole statement is false of the code (refuted by a theorem with `false` in its name or
the one named) and that the part that holds is proved.

### C01 binary16 bit fields are a lossless view of the encoding (proved)

The accessors of `binary16` on `BitVec 16`. Bit arithmetic, for all patterns.

Note: for every 16-bit pattern.

Theorems: `C01_binary16_fields`

### C02 binary16 Big decodes every bit pattern to its IEEE 754 value (proved)

`Big` with the text it builds, and `big.Float.Parse` on that text. The parser is shown to return the value of the text, the text to denote the IEEE value.

Note: for every 16-bit pattern.

Theorems: `C02_binary16_big`

### C03 binary16 survives a round trip through big.Float (proved)

`NewFromBig` after `Big`. A number of the format is encoded exactly; encodings of numbers are unique.

Note: for every half that is not a NaN.

Theorems: `C03_binary16_big_roundtrip`

### C04 binary16 widening to float32 and float64 is exact (proved)

`Float32` and `Float64` through `big.Float`. Corollary of correct rounding, since every half is a float32.

Note: for every half, NaNs included.

Theorems: `C04_binary16_float64`, `C04_binary16_float32`

### C05 binary16 survives a round trip through float64 and float32 (proved)

`NewFromFloat32` and `NewFromFloat64` after `Float32` and `Float64`.

Note: for every half, NaNs up to their canonical payload.

Theorems: `C05_binary16_float64_roundtrip`, `C05_binary16_float32_roundtrip`

### C06 binary16.NewFromFloat64/NewFromFloat32 return the nearest half (partial)

`NewFromFloat64` and `NewFromFloat32`, branch by branch. Refuted; the normal range is proved by the carry argument on encodings (adding one to the encoding moves to the next number).

Note: False of the code, refuted by C06_false (subnormals and overflow). Proved for 2^-14 <= |x| < 2^16, for every double or float32 that is a half, zeros, infinities; subnormals within one unit.

Theorems: `C06_false_subnormal`, `C06_false_overflow`, `C06_false`, `C06_partial`, `C06_partial32`, `C06_subnormal_partial`

### C07 binary16 constructors report the true accuracy (partial)

The accuracies of the constructors. Refuted; what is true is proved.

Note: False of the code, refuted by C07_false (negative numbers, NewFromFloat64). Proved: Exact iff exact in the normal range of NewFromBig, true accuracy for positive numbers there, Exact for halves.

Theorems: `C07_false_negative`, `C07_false_float64`, `C07_false`, `C07_partial`, `C07_float64_partial`, `C07_float32_partial`

### C08 binary16.NewFromBig returns the nearest half (partial)

`NewFromBig`. Refuted (truncation); rounding toward zero proved.

Note: False of the code, refuted by C08_false: NewFromBig truncates. Proved: rounding toward zero for 2^-24 <= |x| < 2^16, halves are kept.

Theorems: `C08_false`, `C08_partial`

### C09 binary16: a finite number never becomes NaN and overflow gives infinity (partial)

`NewFromBig`, `NewFromFloat64`. Refuted; the ranges without defect are proved.

Note: False of the code, refuted by C09_false: NaN in [65600, 131072), finite numbers in [2^17, 2^48). Proved: finite below 2^16; NewFromFloat64 gives infinity in [65520, 2^16).

Theorems: `C09_false_nan`, `C09_false`, `C09_false_wrap`, `C09_partial`, `C09_float64_partial`

### C10 binary16: underflow gives a signed zero or the smallest subnormal (partial)

`NewFromBig`. Refuted; the ranges without defect are proved.

Note: False of the code, refuted by C10_false. Proved: same sign, Below, below 2^-13, and zero when at most 9 significant bits.

Theorems: `C10_false`, `C10_partial`

### C11 The sign bit survives every conversion into binary16, binary128 and float80x86 (proved)

Every constructor of the three packages, by cases on its branches.

Note: for every input of binary16, binary128 and float80x86.

Theorems: `C11_binary128_big`, `C11_binary128_float64`, `C11_binary128_float32`, `C11_binary16_big`, `C11_binary16_float64`, `C11_binary16_float32`, `C11_float80x86_big`, `C11_float80x86_float64`, `C11_float80x86_float32`

### C12 Special values map to special values (proved)

Every constructor and decoder of the three packages on NaN, infinities and zeros.

Note: for every input of binary16, binary128 and float80x86.

Theorems: `C12_binary128_constants`, `C12_binary128_big`, `C12_binary128_float64`, `C12_binary128_float32`, `C12_binary16_constants`, `C12_binary16_big`, `C12_binary16_float64`, `C12_binary16_float32`, `C12_float80x86_constants`, `C12_float80x86_big`, `C12_float80x86_float64`, `C12_float80x86_float32`

### C13 binary128 bit fields are a lossless view of the encoding (partial)

The accessors of `binary128`. Bit arithmetic on the two words.

Note: False on platforms with 32-bit int, where Exp is always 0 (C13_int32). Proved with 64-bit int.

Theorems: `C13_int32`, `C13_false`, `C13_int32_big`, `C13_partial`

### C14 binary128 Big decodes every bit pattern to its IEEE 754 value (proved)

`Big` of `binary128`: text and parser as for C02.

Note: for every bit pattern (64-bit int).

Theorems: `C14_binary128_big`

### C15 binary128 survives a round trip through big.Float (proved)

`NewFromBig` after `Big`.

Note: for every quadruple that is not a NaN.

Theorems: `C15_binary128_big_roundtrip`

### C16 float64 and float32 embed losslessly in binary128 (proved)

`NewFromFloat64`, `NewFromFloat32` followed by `Big` or `Float64`.

Note: for every double and float32 that is not a NaN.

Theorems: `C16_binary128_float64`, `C16_binary128_float32`

### C17 binary128.Float64/Float32 round correctly and report the true accuracy (proved)

`Float64` and `Float32` through `big.Float`; specification `Converts64`, `Converts32`: nearest, ties to even, over all floats, and the sign of the error.

Note: for every bit pattern, NaNs included.

Theorems: `C17_binary128_float64`, `C17_binary128_float32`

### C18 binary128.NewFromBig returns the nearest quadruple with true accuracy (partial)

`NewFromBig` of `binary128`. Refuted; rounding toward zero proved over the whole range of exponents.

Note: False of the code, refuted by C18_false (truncation), C18_false_accuracy, C18_false_overflow, C18_false_underflow. Proved: rounding toward zero in [2^-16494, 2^16384), quadruples kept, accuracy from 2^-16382 on up to the sign, underflow to zero with at most 112 significant bits.

Theorems: `C18_false`, `C18_false_accuracy`, `C18_false_overflow`, `C18_partial`, `C18_underflow_partial`, `C18_false_underflow`

### C19 float80x86 bit fields are a lossless view of the encoding (proved)

The accessors of `float80x86`.

Note: for every bit pattern.

Theorems: `C19_float80x86_fields`

### C20 float80x86 Big decodes every bit pattern (proved)

`Big` of `float80x86`, for all encodings including the unusual ones of the explicit integer bit.

Note: for every bit pattern, pseudo-denormals and unnormals included.

Theorems: `C20_float80x86_big`

### C21 float80x86 survives a round trip through big.Float (proved)

`NewFromBig` after `Big`.

Note: for every encoding that is not a NaN.

Theorems: `C21_float80x86_big_roundtrip`, `C21_float80x86_normalises`, `C21_float80x86_pseudo_denormal`

### C22 float64 and float32 embed losslessly in float80x86 (proved)

`NewFromFloat64`, `NewFromFloat32` followed by `Big` or `Float64`.

Note: for every double and float32 that is not a NaN.

Theorems: `C22_float80x86_float64`, `C22_float80x86_float32`

### C23 float80x86.Float64/Float32 round correctly and report the true accuracy (proved)

`Float64`, `Float32` of `float80x86`, as C17.

Note: for every bit pattern, NaNs included.

Theorems: `C23_float80x86_float64`, `C23_float80x86_float32`

### C24 float80x86.NewFromBig returns the nearest value with true accuracy (partial)

`NewFromBig` of `float80x86`, as C18.

Note: False of the code, refuted by C24_false (truncation), C24_false_accuracy, C24_false_overflow, C24_false_wrap, C24_false_underflow. Proved: rounding toward zero in [2^-16445, 2^16384), numbers of the format kept, accuracy from 2^-16382 on up to the sign.

Theorems: `C24_false`, `C24_false_accuracy`, `C24_false_underflow`, `C24_false_overflow`, `C24_false_wrap`, `C24_partial`

### C25 bfloat decodes every bit pattern (proved)

`bfloat.Float.Big` and the accessors.

Note: for every 16-bit pattern.

Theorems: `C25_bfloat_fields`, `C25_bfloat_big`, `C25_bfloat_big_format`

### C26 float128ppc bit patterns are preserved (proved)

Constructors and accessors of `float128ppc`: pairs of 64-bit words.

Note: model stores the two 64-bit patterns; Go's float64 moves of signalling NaNs are not modelled as quieting.

Theorems: `C26_float128ppc_bits`

### C27 float128ppc.Big is the exact sum of the two doubles, rounded to 106 bits (partial)

`Big`: `big.Float.Add` with 106 bits. Rational arithmetic on sums, and rounding to a number of bits (`RoundsToBits`).

Note: false for opposite infinities (Big panics): C27_false; everything else is proved in C27_partial.

Theorems: `C27_false`, `C27_partial`, `C27_float128ppc_nan`, `C27_float128ppc_exact`

### C28 float64 and float32 embed losslessly in float128ppc (proved)

Constructors from `float64` and `float32`, followed by `Big`, `Float64`, `Float32`.

Theorems: `C28_float128ppc_float64`, `C28_float128ppc_float32`

### C29 float128ppc.NewFromBig splits a number into a double-double of the same value (partial)

`NewFromBig`: the split into high and low part with `Sub`.

Note: false: accuracy is always Exact, and the rounding mode of the argument is used (C29_false, C29_false_mode); the split itself is proved for every rounding mode and precision without overflow (C29_modes_partial, with C29_partial giving the range for ToNearestEven).

Theorems: `C29_false`, `C29_false_mode`, `C29_partial`, `C29_float128ppc_exact`, `C29_float128ppc_nearest`, `C29_modes_partial`, `C29_modes_nearest`

### C30 float128ppc.NewFromBig is total and does not modify its argument (partial)

`NewFromBig`: when it panics, and the argument after the call.

Note: false: panics exactly when the argument rounded to 106 bits in its mode is past the double range (C30_modes_partial; C30_partial gives the threshold for ToNearestEven), and modifies its argument (C30_float128ppc_argument and C30_modes_argument say how).

Theorems: `C30_false`, `C30_false_modifies`, `C30_partial`, `C30_float128ppc_argument`, `C30_modes_partial`, `C30_modes_argument`

### C31 float128ppc special values (partial)

Special values.

Note: false for NegInf and for NaN signs (C31_false, C31_false_negInf, C31_false_nan); the rest is proved.

Theorems: `C31_false`, `C31_false_negInf`, `C31_false_nan`, `C31_partial`

### C32 float128ppc survives a round trip through big.Float (partial)

`NewFromBig` after `Big`.

Note: false when low is -0 (C32_false); proved for every other canonical pair, and that -0 becomes +0.

Theorems: `C32_false`, `C32_partial`

### C33 IsExact32 and IsExact64 are sound (proved)

`IsExact32`, `IsExact64` with the text they build through the private `strconv` and `trimZeros`. An accepted number equals the value of the shortest decimal of a float.

Note: every big.Float; infinities panic, so they are never accepted.

Theorems: `C33_isExact64`, `C33_isExact32`

### C34 IsExact16 is sound (partial)

`IsExact16`. Refuted; the part that holds is proved. Below 4110 it is sound: a float64 that is a decimal with d places has at most d binary places, so that a decimal printed for a binary16 with unit 2^-i is either that number or on the same grid; from 2^11 on multiples of 10 are compared with multiples of the unit.

Note: false: IsExact16(8210) is true (C34_false); what is proved: an accepted number has at most five digits and lies in the rounding interval of a finite binary16 value, and below 4110 it is a binary16 value (C34_below_partial); 4110 is the least number that is accepted wrongly (C34_least).

Theorems: `C34_below_partial`, `C34_least`, `C34_false`, `C34_partial`

### C35 IsExact16/32/64 are complete (partial)

The exact condition decided by the three functions, as a specification on decimals.

Note: false for all three functions (C35_false16, C35_false32, C35_false64); the exact condition that is decided is proved (C35_decides16/32/64), acceptance of numbers with at most 3, 7, 15 digits, and rejection of numbers with more than 5, 9, 17 digits (up to 101).

Theorems: `C35_decides64`, `C35_decides32`, `C35_decides16`, `C35_false16`, `C35_false32`, `C35_false64`, `C35_false`, `C35_digits_partial`, `C35_rejects_partial`

### C36 IsExact16/32/64 answer for every number (partial)

Totality, and dependence on the value only.

Note: false for infinities, which panic (C36_infinite); proved for all finite numbers, and that the answer depends only on the value.

Theorems: `C36_infinite`, `C36_false`, `C36_partial`, `C36_sign_partial`

### C37 IsExact on integers (proved)

The three functions on integers.

Theorems: `C37_integers`

### C38 Trimming zeros keeps the number (partial)

`trimZeros` on the texts of `FormatFloat` with format e.

Note: Holds for every number with a point and for every number without one except minus zero; the whole claim is refuted by -0e+00.

Theorems: `C38_false`, `C38_trimZeros_partial`, `C38_noExponent`, `C38_panics`

### C39 FormatUint/FormatInt print the canonical numeral (proved)

`FormatUint`, `FormatInt`, `AppendUint`, `AppendInt`: `formatBits` with its tables, by induction on digits; specification: the numeral in the base without leading zeros.

Theorems: `C39_numeral_unique`, `C39_int_numeral_unique`, `C39_formatUint`, `C39_formatInt`, `C39_itoa`, `C39_append`, `C39_host_independent`, `C39_illegal_base`

### C40 Multiprecision decimals are exact (proved)

`decimal.Assign`, `Shift`, `String`: digit lists as rationals; the table of cutoffs checked row by row. Beyond 800 digits each step is shown to round down (`Cuts`), and the steps are multiplied up.

Note: no operation of the model wraps: results are exact on both word sizes.

Theorems: `C40_assign_shift`, `C40_assign_shift_float`, `C40_shift`, `C40_unique`, `C40_shift_any`, `C40_shift_step`, `C40_string`, `C40_string_sign`

### C41 Decimal rounding is correct (proved)

`Round`, `RoundUp`, `RoundDown`, `RoundedInteger`, `shouldRoundUp`.

Note: RoundedInteger for values that round to less than 2^64; C41_roundedInteger_wraps shows that the bound is sharp.

Theorems: `C41_round`, `C41_roundDown`, `C41_roundUp`, `C41_unchanged`, `C41_roundedInteger`, `C41_roundedInteger_wraps`, `C41_nearest_unique`

### C42 FormatFloat with precision -1 round-trips (proved)

`FormatFloat` with the fast algorithm (Grisu) and the exact one (`roundShortest`); reading back is `RoundsTo` the same float.

Note: FormatFloat with a negative precision reads back as the same float: all three sizes, formats e E f g G, both algorithms; for size 32 also for float64 arguments that are not float32 values.

Theorems: `C42_roundtrip`, `C42_formatFloat`, `C42_float32`

### C43 FormatFloat with precision -1 is shortest (proved)

The same paths; minimality over all decimals with fewer digits.

Note: every finite float of sizes 16, 32 and 64, formats e, E, f, g, G, any negative precision, with and without the fast algorithm.

Theorems: `C43_minimal`, `C43_formatFloat`

### C44 The fast shortest-digits algorithm is sound (proved)

`ShortestDecimal`: error analysis over the rationals.

Note: for every finite float of the three formats; minimal length and closeness among all decimals, at any exponent.

Theorems: `C44_shortest_sound`, `C44_shortest_zero`, `C44_shortest_integer`

### C45 The table of powers of ten is correctly rounded (proved)

`powersOfTen`, `smallPowersOfTen`, `uint64pow10`, `frexp10`: all rows, all exponents.

Note: all 87 rows, all exponents of the three formats.

Theorems: `C45_powers`, `C45_small_powers`, `C45_search`, `C45_search_range`

### C46 FormatFloat layout (proved)

`genericFtoa`, `bigFtoa`, `formatDigits`, `fmtE`, `fmtF`, `fmtB`; specification: grammars of the texts.

Note: shapes for every digit string, and for every float of the three sizes with any precision; NaN and infinities; sizes 16 and 32 on float64 arguments that do not fit.

Theorems: `C46_digits_exponential`, `C46_digits_fixed`, `C46_exponential`, `C46_fixed`, `C46_general`, `C46_binary`, `C46_special`, `C46_size32`, `C46_size16`, `C46_append`

### C47 FormatFloat with fixed precision rounds correctly (proved)

`FixedDecimal` and the exact path with a given precision; both print the correctly rounded decimal.

Note: formats e, E, g, G and f; fast path and exact path print the same text; sizes 16, 32, 64.

Theorems: `C47_exponential`, `C47_general`, `C47_fixed`, `C47_fast_path`

### C48 Extended float arithmetic is within half a unit (proved)

`Normalize`, `Multiply`, `AssignComputeBounds`.

Note: all 64-bit mantissas; bounds for every nonzero finite float of the three formats.

Theorems: `C48_normalize`, `C48_multiply`, `C48_multiply_error`, `C48_bounds`

### C49 Decimal to float conversion reports success only when correct (partial)

`AssignDecimal`, `floatBits`: error analysis over the rationals, with the wrap-around of the comparison window. Refuted; the part that holds is proved. `C49_iff_partial` gives the exact condition for a nonzero mantissa.

Note: false in four ways (C49_false_tie, C49_false_near, C49_false_zero, C49_false_trunc); proved for nonzero mantissas (61 bits if truncated), for binary64 without further conditions and for the other formats away from half the smallest subnormal; C49_iff_partial says for which decimals a reported success is right.

Theorems: `C49_false_tie`, `C49_false_near`, `C49_false_zero`, `C49_false_trunc`, `C49_false`, `C49_correct_partial`, `C49_double_partial`, `C49_total`, `C49_iff_partial`

### C50 float128ppc Float64 and Float32 are the correctly rounded sum of the two doubles (partial)

`Float64`, `Float32` of `float128ppc`. Refuted (double rounding); proved for sums that fit 106 bits.

Note: false because of double rounding (C50_false, C50_false_float32); proved for sums of at most 106 bits.

Theorems: `C50_false`, `C50_false_float32`, `C50_partial`

### C51 FormatFloat with precision -1 prints the closest of the shortest decimals (partial)

Closeness of the shortest digits. Refuted for the exact path; proved with its one exception stated.

Note: false for the exact path: float64 0x44dee27bdef22651 prints ...2236e+23 although ...2237e+23 is closer; proved for every float with an even mantissa, for every float below 2^(t+1), and in general up to one exception whose shape is stated; C51_iff_partial says exactly when the text is the closest.

Theorems: `C51_iff_partial`, `C51_closest_partial`, `C51_even_partial`, `C51_small_partial`, `C51_false`

### C52 FormatFloat returns a text for every input (partial)

Totality of `FormatFloat`. Refuted for unknown letters; proved for the known ones.

Note: false: an unknown letter with precision 0 and a nonzero number panics (C52_false, C52_unknown_partial says exactly when); proved for all known formats.

Theorems: `C52_false`, `C52_known_partial`, `C52_unknown_partial`, `C52_size`

### C53 Shortest formatting is short (proved)

Bounds for the lengths of shortest texts.

Note: the bound for the printed number in all formats, and for the digits after the point in formats e and E.

Theorems: `C53_digits`, `C53_exponential`

### C54 Decimal to float conversion gives up only near a tie (proved)

`AssignDecimal`: the converse of the error analysis of C49.

Theorems: `C54_gives_up_only_near`, `C54_out_of_range`

### C55 The constructors depend on the value only, by a stated formula (proved)

The complete input-output behaviour of the constructors, including the ranges where the nearest-value claims fail.

Note: also covers the inputs for which C06-C10, C18 and C24 fail: the formula says what comes out instead.

Theorems: `C55_binary16_big`, `C55_binary16_value`, `C55_binary16_float64`, `C55_binary16_float32`, `C55_binary128_big`, `C55_binary128_value`, `C55_float80x86_big`, `C55_float80x86_value`

### C56 Conversions between the packages are lossless (proved)

Compositions of the decoders and constructors of different packages, from the containment of the formats.

Theorems: `C56_float128ppc_double_modes`, `C56_binary16_binary128`, `C56_binary16_float80x86`, `C56_bfloat_binary128`, `C56_bfloat_float80x86`, `C56_float80x86_binary128`, `C56_binary128_narrow`, `C56_float80x86_narrow`, `C56_routes`, `C56_float128ppc_double`, `C56_binary16_float128ppc`

### C57 Conversions are monotone (partial)

Monotonicity of correct rounding and of truncation, from their specifications only.

Note: False of the constructors, refuted by C57_false_binary16, C57_false_binary128 and C57_false_float80x86 (numbers beyond the range wrap around). Proved for Float64 and Float32, and for the constructors on infinities, zeros and magnitudes from the smallest subnormal up to the number right above the power of two that ends the range (C57_..._upto_partial); both ends are sharp (C57_..._ends).

Theorems: `C57_binary128_float64`, `C57_binary128_float32`, `C57_float80x86_float64`, `C57_float80x86_float32`, `C57_binary128_newFromFloat64`, `C57_binary128_newFromFloat32`, `C57_float80x86_newFromFloat64`, `C57_float80x86_newFromFloat32`, `C57_false_binary16`, `C57_false_binary128`, `C57_false_float80x86`, `C57_false`, `C57_binary16_big_partial`, `C57_binary128_big_partial`, `C57_float80x86_big_partial`, `C57_binary16_float64_partial`, `C57_binary16_float32_partial`, `C57_binary16_upto_partial`, `C57_binary16_ends`, `C57_binary128_upto_partial`, `C57_binary128_ends`, `C57_float80x86_upto_partial`, `C57_float80x86_ends`

### C58 Negating the argument only negates the result (proved)

`Format.decode` of a code with the other sign bit is the negated datum, and rounding to nearest even is symmetric (`roundsTo_neg`), so the specifications proved in C01-C24 give the results for both signs, which are unique. For FormatFloat the sign of the model is followed through every helper (`ftoaFinite_sign`). `Spec.Datum.neg`, `Spec.flipAccuracy` and `Spec.NegatedText` are the statements' vocabulary.

Note: float128ppc is left out: it has two sign bits, and the low part of an exact number is +0 for both signs.

Theorems: `C58_binary16_big`, `C58_binary16_float`, `C58_binary16_newFromBig`, `C58_binary16_newFromFloat64`, `C58_binary16_newFromFloat32`, `C58_binary128_big`, `C58_binary128_float`, `C58_binary128_newFromBig`, `C58_binary128_newFromFloat64`, `C58_binary128_newFromFloat32`, `C58_float80x86_big`, `C58_float80x86_float`, `C58_float80x86_newFromBig`, `C58_float80x86_newFromFloat64`, `C58_float80x86_newFromFloat32`, `C58_bfloat_big`, `C58_format`, `C58_format_unknown`, `C58_format_finite`, `C58_isExact`

### C59 FormatFloat preserves order and tells numbers apart (proved)

From the round trip (C42) and correct rounding (C47), whose specifications are monotone; the binary format from its grammar (C46).

Theorems: `C59_shortest`, `C59_distinct`, `C59_distinct_binary`, `C59_precision`

### C60 17, 9 and 5 digits identify a float (proved)

Correct rounding (C47) and the distance between adjacent floats.

Theorems: `C60_exponential`, `C60_general`

### C61 Decimals of 15, 6 and 3 digits survive (proved)

The decimal lies within half a unit of the float, so it is the float rounded to that many digits; the shortest text has no more digits (C43) and is rounded to the float too (C42).

Theorems: `C61_shortest`, `C61_exponential`, `C61_general`

### C62 Exactly which double-doubles survive a round trip through big.Float (proved)

`Big` and `NewFromBig` of float128ppc: the converse of C32.

Note: both directions; C62_float128ppc_test_row shows that float128ppc_test.go:16 is not such a pair.

Theorems: `C62_float128ppc_survives`, `C62_float128ppc_test_row`

### C63 Enough digits print the exact value (proved)

The magnitude of a finite number of a format is a natural number times a power of two not below the smallest subnormal; multiplied by the matching power of ten it is a natural number, bounded by the widths of the format. Correct rounding (C47) of a number that already has that few digits is the number. The bound is sharp because an odd multiple of the smallest unit cannot lose a digit.

Theorems: `C63_exponential`, `C63_general`, `C63_fixed`, `C63_sharp`

### C64 The format letter only changes the layout (proved)

The digits a negative precision prints are obtained before the letter is looked at (short_digits); the text of each layout is written as a list of digit characters, on which capitalising acts as the identity except on the letter. With a precision the digits of two letters agree because correct rounding is unique and a normal decimal is determined by its value.

Theorems: `C64_capital`, `C64_negative`, `C64_shortest`, `C64_fixed`

### C65 IsExact16 implies IsExact32 implies IsExact64 (proved)

Props/ExactChain: an accepted number equals its shortest decimal (the denominators are too small for two different numbers to agree to 101 digits), so it has at most 9 (5) digits, and a binary fraction with at most 5 digits below 65520 is a float32; then the digit theorems of C35 apply.

Theorems: `C65_digits32`, `C65_32_64`, `C65_16_32`, `C65_16_64`

### C66 What NewFromBig and NewFromFloat64 return denotes, for every number (proved)

Props/Value: decodes the bit formulas of C55 (exponent field and fraction field), and, for float64, locates the rounding to 11 bits relative to the powers of two.

Note: describes what the code does; that it should not make NaNs of numbers is C09.

Theorems: `C66_binary16`, `C66_binary16_nan`, `C66_binary16_inf`, `C66_binary128`, `C66_binary128_nan`, `C66_binary128_inf`, `C66_float80x86`, `C66_float80x86_nan`, `C66_float80x86_inf`, `C66_binary16_float64`

### C67 Exactly when the reported accuracy is true (proved)

Props/Accuracy: compares the values of C66 and the accuracy of C55 case by case.

Note: describes what the code does; that the accuracy should be true is C07, C18 and C24.

Theorems: `C67_binary16`, `C67_binary128`, `C67_float80x86`, `C67_binary16_float64`, `C67_binary16_float64_true`

### C68 The generated test vectors are right (proved)

Model/Gen: the two programs. Props/Gen: the product of powers of two and a mantissa is exact in float64, so the expected value decodes to the number of the encoding, and C04, C05 give the checks; for binary128 the program parses the same text as Big, so the number is the one of C14, and C16, C17 give the checks.

Note: A row is modelled by its fields, the text of a float64 constant by the value the compiler gives it. The random choice is a parameter.

Theorems: `C68_binary16`, `C68_binary128`

### C69 Float64 of a normalised double-double is its high half, with one exception (proved)

double rounding analysed with interval lemmas (Proofs/DoubleRound): rounding the sum to 106 bits leaves the open half-unit interval about `high` unless the low half is the largest double below half a unit, and then lands on the midpoint.

Note: `Normalised` states the normal form by quantification over all doubles (Format.RoundsTo); `C69_float128ppc_overflow` is a finite pair with an infinite Float64.

Theorems: `C69_float128ppc_high`, `C69_float128ppc_overflow`

### C70 float128ppc conversions are monotone and treat the sign as a sign (proved)

C27 and C17-style conversion lemmas for Big, Float64, Float32; for NewFromBig, exact sums above 2^-969 and nearest multiples of 2^-1074 below.

Note: Float.sum is the exact sum on the extended number line (Spec/Sum). NewFromBig for tiny numbers, whose pair has fewer than 106 bits, is covered through the grid of multiples of 2^-1074.

Theorems: `C70_float128ppc_big`, `C70_float128ppc_float`, `C70_float128ppc_negate`, `C70_float128ppc_nosum`, `C70_float128ppc_newFromBig`, `C70_float128ppc_newFromBig_negate`

### C71 Exactly when the constructors return the nearest number (proved)

Each case of C66 gives the value of the result; a number is in the rounding interval of its own truncation if and only if the truncated number of units is its nearest even integer.

Note: Sharpens the partial C06, C08, C18, C24: what of them is false is false of exactly these arguments. Proved from C66 and the intervals of numbers that round to an encoding.

Theorems: `C71_binary16`, `C71_binary128`, `C71_float80x86`, `C71_binary16_float64`

### C72 Exactly which numbers IsExact32 and IsExact64 accept (proved)

(C72_isExact16_iff: an accepted number other than zero is a multiple of 2^-7, where NewFromFloat64 rounds correctly by C71, and C77 says which decimal is printed.) Proofs/Gap: if a float64 and a decimal of 17 digits agree to 101 digits they are equal, from a certificate for each exponent of ten (two neighbouring fractions around the quotient 2^k/10^e with denominators summing to more than 2^60). The printed text is then exactly the number; minimality is C43; conversely a float that is one of its own shortest decimals is printed itself (short_digits_self).

Note: The cut at 101 digits is harmless because neighbouring fractions around the quotient of the powers of two and ten, one pair for each of the exponents of ten that occur (gap_large, gap_small: checked by the kernel for all of them), keep decimals and floats apart.

Theorems: `C72_isExact16_iff`, `C72_isExact64`, `C72_isExact32`, `C72_isExact16`, `C72_isExact16_shortest`, `C72_isExact16_self`, `C72_digits`

### C73 How long the texts of FormatFloat are (proved)

Props/TextLength: the last digit of a shortest decimal is not beyond the place P with 10^-P below the least distance of two floats (last_place: otherwise the nearest multiple of 10^-P would be shorter), the first not beyond the digits of the largest float; the lengths of the layouts then follow from the shape lemmas of Proofs/Layout.

Note: Each bound is attained by one of the examples beside the theorems.

Theorems: `C73_shortest`, `C73_shortest_fixed`, `C73_exponential`, `C73_general`, `C73_decimals`

### C74 The constructors of a package agree with each other (proved)

Props/Agree: from C55 (NewFromBig depends on the value only), C12/C16/C22 (what the constructors return) and injectivity of the decodings; float128ppc through the splitting lemmas of C29; binary16 through C71.

Note: The places where they differ (float128ppc at -Inf, binary16 beyond 11 bits) are part of the statement and proved.

Theorems: `C74_binary128_big`, `C74_binary128_float32`, `C74_float80x86_big`, `C74_float80x86_float32`, `C74_float128ppc_big`, `C74_float128ppc_negInf`, `C74_float128ppc_float32`, `C74_binary16_big`, `C74_binary16_big_iff`, `C74_binary16_float32`

### C75 Exactly when Float64 and Float32 of a double-double are correctly rounded (proved)

Props/TwiceRounded: the points half way between floats have at most t+2 <= 106 bits, so rounding to 106 bits cannot jump over them (le_of_le, ge_of_ge of Proofs/DoubleRound); the two roundings differ only when the first lands on such a point.

Note: The exact complement of the sums for which C50 is false.

Theorems: `C75_float128ppc_correct`

### C76 Switching the fast algorithms off changes no text (proved)

Props/Optimise: for fixed precisions both paths give the correctly rounded digits. For shortest texts, an answer of ShortestDecimal has no shorter or equally long rival in the closed rounding interval that is as close (C44_shortest_sound), which excludes both ties and the exception of C51; the answer of the exact path is another decimal of that length in the interval and as close, hence the same.

Theorems: `C76_optimise`, `C76_unknown`

### C77 Exactly which decimal a negative precision prints (proved)

Proofs/BigShortest follows the loop of roundShortest digit by digit (Outcome, Picks): where it stops, both bounds have been compared exactly, except when an excluded upper bound has run out of digits; then the loop only rounds down. Props/ShortestExact translates this, and carries it to the fast path by C76. printed_rounded compares with the correctly rounded digits of C47.

Note: Format.Printed is the description; C77_determined shows that it leaves no choice. Sharpens C51: what is printed for the exceptional floats is stated as well.

Theorems: `C77_printed`, `C77_determined`, `C77_fixed`, `C77_fixed_same`

### C78 The size of int shows only at the extremes (proved)

Verif/Model/IntSize models the same functions a second time with wrapping arithmetic. Proofs/IntSize bounds every intermediate result (Tame, Small) and shows the two models equal function by function; where a sum does overflow (format f with a huge precision), both agree because both numbers are beyond the last digit.

Note: Justifies the unbounded int of the other properties. Zero with the largest precision is not covered: there the loop of fmtE does not end. C78_false_big32 shows that the 32-bit limits of NewFromBig are exact.

Theorems: `C78_append`, `C78_format`, `C78_largest`, `C78_binary16_big`, `C78_binary16_float64`, `C78_binary128_big`, `C78_binary128_float64`, `C78_float80x86_big`, `C78_float80x86_float64`, `C78_false_big32`

### C79 32-bit and 64-bit machines print the same (proved)

Proofs/SameText: a shifted decimal is normal, exact and not truncated on both machines, and a normal decimal is determined by its value. C78 carries the result to the wrapping int.

Theorems: `C79_format`, `C79_append`, `C79_int`, `C79_itoa`, `C79_appendInt`

### C80 Which numbers a call changes, and who else knows the number that Big returns (proved)

A second model of the functions that handle pointers, run symbolically on an arbitrary memory; it agrees with the model on values, which carries all other properties over.

Note: In a model with memory (Verif/Model/Heap): a *big.Float is an address, statements read and write cells, writes before a panic stay. The mantissa words are part of the cell.

Theorems: `C80_bfloat_big`, `C80_binary16_big`, `C80_binary128_big`, `C80_float80x86_big`, `C80_float128ppc_big`, `C80_big_twice`, `C80_binary16_newFromBig`, `C80_binary128_newFromBig`, `C80_float80x86_newFromBig`, `C80_binary16_floats`, `C80_binary128_floats`, `C80_float80x86_floats`, `C80_float128ppc_floats`, `C80_isExact`, `C80_newFromBig`, `C80_newFromBig_kept`, `C80_newFromBig_twice`

### C81 AppendFloat, AppendInt and AppendUint write only behind the bytes of the slice given, and move to a new array exactly if the text does not fit (proved)

a model of slices as windows into arrays, with append as the Go language defines it and the functions statement by statement; a relation between memory before and after that is preserved by composition

Note: Proved in a second model (Verif/Model/Slices.lean) with arrays and slices, related to the first.

Theorems: `C81_appendFloat`, `C81_appendInt`, `C81_appendUint`, `C81_no_free`, `C81_twice_fits`, `C81_twice_moved`, `C81_int_all_or_nothing`, `C81_float_not_all_or_nothing`, `C81_room_shortest`, `C81_room_int`, `C81_formatFloat`, `C81_one_array`

### C82 What the size of int does to binary128: on 32-bit machines every number is read as a subnormal (proved)

with 32 bits the conversions equal those of the number with its exponent field cleared; C14, C16 and C17 for that number

Note: Describes the consequences of C13_int32, a defect of the code on 32-bit platforms.

Theorems: `C82_int64`, `C82_big`, `C82_big_iff`, `C82_float64`, `C82_float32`, `C82_roundtrip`, `C82_newFromFloat32`, `C82_newFromFloat32_accuracy`

### C83 Calls from several goroutines: no data race, except through float128ppc.NewFromBig (proved)

an interleaving machine over the memory model of C80; race freedom gives sequential results for any computations (drf_state, by induction over the schedule); the footprint of every function by a logic of reads and writes

Note: A step reads or writes one whole number; goroutines do not communicate while they run. The converse (C83_race) is for goroutines that end without a panic.

Theorems: `C83_race_free`, `C83_race_only`, `C83_race`, `C83_values`, `C83_ends`

### C84 binary128: the texts of 35 digits in the generated tests (partial)

model of big.Float.Text('g') and SetString with the rounding errors of the powers of five; the distance of a number of 113 bits to the doubles

Note: The test does not pass for every row: it fails for 1000 + 5 * 2^-39 (C84_false). 35 digits do not identify a number of binary128 (C84_collision).

Theorems: `C84_text`, `C84_read`, `C84_test_partial`, `C84_sound`, `C84_false`, `C84_collision`

### C85 binary128: the order of the generated rows (partial)

the comparison is the product order negated; C85_sortable_iff says exactly when it can be met

Note: Of 512 random mantissas some will cross, so the generated file depends on the version of the Go library (C85_false).

Theorems: `C85_sortable_iff`, `C85_order_partial`, `C85_false`, `C85_both`

### C86 The generated source lines are read as the rows that were computed (proved)

Sprintf with %X, %v, %q and %s modelled (Model/GenRow.lean), %v by the model of strconv's shortest format (C42, C46); the reading of a line is unique because the fields cannot contain the separators

Note: How Go reads a line is described in Spec/GoSource.lean; the template, which copies the lines, is not modelled.

Theorems: `C86_binary16`, `C86_binary128`

### C87 Rounding an extended float to a float format (proved)

The result is the count of units of the last place rounded half up (floatBits_eq); from that the midpoints on both sides of the result bound the number, and the claims follow from the midpoints

Theorems: `C87_floatBits`, `C87_determined`, `C87_even_iff`, `C87_zero`

### C88 The fast algorithm for a fixed number of digits gives up only next to a tie (proved)

`FixedDecimal`: the error analysis of the scaled number over the rationals, which bounds the distance to the middle when the last digit cannot be decided

Theorems: `C88_rounded`, `C88_gives_up`, `C88_middle`

### C89 The text of FormatFloat is completely determined (proved)

`ShownText`: the existence is C46, C47 and C77 put together; the uniqueness is that the value and the layout determine the digits and the exponent of a text, whatever program wrote it

Theorems: `C89_text`, `C89_formatFloat`, `C89_binary`

### C90 What FormatFloat prints is read back by AssignDecimal (proved)

`ReadBack`: what is printed is rounded to the float (C42, C60), a reported success is right above half the smallest subnormal (C49), and no decimal at or below that is rounded to a float other than zero; the bits are determined by the number

Theorems: `C90_decimal`, `C90_shortest`, `C90_digits`, `C90_gives_up`

### C91 The arithmetic the conversions rest on is correctly rounded with a true accuracy (proved)

`Library`: one step of rounding in every mode (`round_full`), a sticky bit for the quotient (`round_sticky`), aligned mantissas for sums; the specification `BigResult` speaks of rational numbers and of all numbers with p bits

Note: About the definitions that stand for math/big, whose source is not in the sandbox. Sub from a zero is covered only if it needs no rounding: math/big rounds first and reverses the sign then; /repo never does that.

Theorems: `C91_setPrec`, `C91_set`, `C91_add`, `C91_sub`, `C91_mul_quo`, `C91_cmp`, `C91_float`, `C91_mantExp`, `C91_integers`, `C91_parse`, `C91_newFloat`, `C91_text`, `C91_textG`, `C91_conversion`

### C92 The order of the numbers is the order of the bit patterns (proved)

`Place`: the magnitude of a pattern is strictly monotone, with the signs put together; `Cmp` by C91; double-doubles by monotonicity of correct rounding

Note: Unnormal encodings of float80x86 are out of order (C92_float80x86_unnormal).

Theorems: `C92_binary16`, `C92_binary16_next`, `C92_bfloat`, `C92_binary128`, `C92_float80x86`, `C92_float80x86_unnormal`, `C92_float128ppc`, `C92_bfloat_next`, `C92_binary128_next`, `C92_float80x86_next`

### C93 Numbers that IsExact accepts convert without loss (proved)

C33 and C34_below_partial give the float; C74 relates NewFromBig to NewFromFloat64, and C16, C22, C28 bring it back

Note: From 4110 on IsExact16 accepts numbers that are no halves (C34_least). The converse does not hold (C93_converse).

Theorems: `C93_isExact64`, `C93_isExact32`, `C93_isExact16`, `C93_converse`

### C94 A second conversion changes nothing (proved)

`Settle`: C66 says when a NaN comes out and C55 which bits; C03, C15 and C21 bring the rest back; a pair of doubles with an exact low half is canonical (C32), and below that range both conversions stay on the grid of 2^-1074

Note: Infinities: C12, C31.

Theorems: `C94_binary16`, `C94_binary128`, `C94_float80x86`, `C94_float80x86_value`, `C94_float128ppc`, `C94_float128ppc_tie`

### C95 The way to float64 through a wider format (proved)

`Detour`: truncation to p bits does not jump over a point half way between floats (`trunc_ge`), so `twice_of` of C75 applies; tiny numbers go to zero on both ways; C91 gives the direct way

Note: From 2^16384 on the constructors wrap around (C66).

Theorems: `C95_binary128`, `C95_float80x86`, `C95_float128ppc`

### C96 Narrowing in steps is narrowing at once (proved)

`Narrow`: leading bits of leading bits are leading bits (`floor_trunc`); C66 gives the value in between, C55 the bits of both results

Note: Outside of the range the two ways may differ (examples in Props/Narrow.lean).

Theorems: `C96_binary128`, `C96_float80x86`

### C97 How far a converted number can be from its argument (proved)

`RelError`: leading bits (C66), nearest numbers of a format (C17, C23, C71) and of p bits (C29) are no further away than the two neighbours of the argument

Note: Outside of the ranges: C66 (binary16, binary128, float80x86), C29 and C30 (float128ppc).

Theorems: `C97_binary16`, `C97_binary16_float64`, `C97_binary128`, `C97_binary128_narrow`, `C97_float80x86`, `C97_float80x86_narrow`, `C97_float128ppc`, `C97_float128ppc_float64`

### C98 A decimal text of enough digits brings the value back (proved)

Proofs/TextSurvives.lean: the text is within half a unit of its last digit of the number, the variable read is within a part in 2^60 of a unit of the text, and numbers of p bits are further apart than that; the texts that are exact are handled by divisibility. Then the uniqueness of NewFromBig (C03, C15, C21, C32).

Note: Text('g', n) and SetString are the library functions as modelled in Model/BigText.

Theorems: `C98_binary16`, `C98_binary16_fewer`, `C98_bfloat`, `C98_bfloat_fewer`, `C98_binary128`, `C98_binary128_fewer`, `C98_float80x86`, `C98_float80x86_fewer`, `C98_float128ppc`, `C98_float128ppc_fewer`

### C99 Exactly which numbers a double-double holds (proved)

Props/PairRange.lean: from the description of NewFromBig for every rounding mode (newFromBig_mode); below 2^-969 the remainder is a multiple of 2^-1074 of at most 2^52 units and hence a double, from there on it is exact anyway.

Note: Says for which numbers the Exact that NewFromBig always reports (C29) is true.

Theorems: `C99_exact`, `C99_values`, `C99_next`, `C99_largest`

### C100 Comparing values with == and comparing their numbers (proved)

Props/Equal.lean: from the order of the bit patterns (C92), with the sign; for float80x86 from what every encoding denotes (C20).

Note: C100_float80x86_false and C100_float128ppc_false show that the restrictions are needed.

Theorems: `C100_binary16`, `C100_bfloat`, `C100_binary128`, `C100_float80x86_finite`, `C100_float80x86`, `C100_float80x86_inf`, `C100_float80x86_others`, `C100_float80x86_false`, `C100_float128ppc`, `C100_float128ppc_false`

### C101 To float32 in one step and in two (proved)

Props/Step.lean: what lies half way between two float32 values is a double, so that rounding to double does not jump over it; then the lemma on rounding twice of C75.

Note: The conversion float32(r) of the language is specified by IsFloat32Of, not modelled. C101_float80x86_false is the exception in the statement.

Theorems: `C101_binary128`, `C101_float80x86`, `C101_float80x86_false`, `C101_float128ppc`

### C102 Nothing of as many digits is nearer than the text, so more digits never hurt (proved)

Props/Best.lean: `C102_significant`, `C102_fixed`: from the exact rounding (C47), by comparing with the multiples of the last place and, for numbers below the power of ten, with the power itself. `C102_more`, `C102_shortest` follow, the latter with C53.

Theorems: `C102_significant`, `C102_fixed`, `C102_more`, `C102_shortest`

### C103 Print, read and print again (proved)

Props/Again.lean: what is read is at least as near to the text as the float was; by cases on whether it lies in the same decade, the next or the one before; then the text follows from the number by C89.

Note: C103_unstable shows that the exception exists. Reading is Format.RoundsTo (nearest, ties to even).

Theorems: `C103_significant`, `C103_fixed`, `C103_twice`, `C103_unstable`

### C104 Adding and subtracting by way of Big, big.Float and NewFromBig is the IEEE sum, up to the overflow threshold (proved)

Props/Sum.lean: Proofs/Sum.lean shows that a multiple of the least number of the format, rounded to the bits of the format, is the number of the format nearest to it; with the exact sum of C91 and the exact conversions (C02, C14, C20) this gives the sum, and C66 gives what becomes of results out of range. Props/SumPair.lean does float128ppc: a multiple of 2^-1074 rounded to 106 bits can be held by a pair (C99).

Note: The overflow behaviour beyond the threshold is part of the theorem, as the code has it; operands that are infinite are covered by C91.

Theorems: `C104_binary16`, `C104_binary128`, `C104_float80x86`, `C104_float128ppc`

### C105 A float printed with the size of a wider type (proved)

Props/Wider.lean: the middle of two neighbours of the smaller size is a number of the larger one, so what the larger size reads as a number lies within what the smaller one does (`C105_reads`); `C105_texts` follows with the exact description of the shortest text (C77).

Theorems: `C105_reads`, `C105_texts`

### C106 What sums by way of big.Float keep: a difference is zero only between equal numbers (proved)

Props/Difference.lean: from the sums of C104: both summands are multiples of the smaller of their units, and a multiple that is not larger than either of them is a number of the format (Sterbenz for differences; for the error, both summands are candidates for the rounding).

Note: Rounding to nearest, ties to even, as a new big.Float has it.

Theorems: `C106_binary16`, `C106_binary128`, `C106_float80x86`

### C107 The rounding error of a sum is computed by two more operations (proved)

Props/ErrorOfSum.lean: the rounded sum is the exact one, or lies within a factor of two of the larger summand, so that the second step is exact by Sterbenz (C106); what is left is the error, a number of the format (C106). `C107_order` is the counterexample for the other order.

Note: Rounding to nearest, ties to even, as a new big.Float has it.

Theorems: `C107_binary16`, `C107_binary128`, `C107_float80x86`, `C107_order`

### C108 Multiplying and dividing by way of Big, big.Float and NewFromBig is the IEEE result in the normal range (proved)

Props/Product.lean: Mul and Quo are correctly rounded (C91); Proofs/Sum.lean shows that a number in the normal range, rounded to the bits of the format, is the number of the format nearest to it, which NewFromBig returns unchanged; the subnormal results by C66. `C108_below` is the counterexample below the normal range.

Note: The receiver has the precision of the format set. Results above the threshold, and below the least number, are described by C66.

Theorems: `C108_binary16`, `C108_binary128`, `C108_float80x86`, `C108_below`

### C109 The product of two float64 values by way of float128ppc is exact (proved)

Props/ProductPair.lean: the product of two integers of 53 bits has at most 106, so Mul (C91) rounds nothing; C99 says when the parts sum to the number they came from, and a number of 106 bits can be held if and only if it is a multiple of 2^-1074.

Note: The receiver has precision 106 set and rounds to nearest, ties to even. `C109_below` is a product that is lost altogether.

Theorems: `C109_product`, `C109_tenth`, `C109_below`

### C110 The quotient of two float64 values by way of float128ppc (proved)

Props/QuotientPair.lean: a quotient of integers of 53 bits differs from a point half way between two floats by more than half a unit of 106 bits, unless it is that point (`quotient_not_misled`), so rounding twice is rounding once (C75); the sum of the parts by C99 and C109.

Note: The receiver has precision 106 set and rounds to nearest, ties to even.

Theorems: `C110_quotient`

### C111 Arithmetic with infinities and zeros by way of Big, big.Float and NewFromBig (proved)

Props/Special.lean: by cases on the forms of what Big returns (C02, C20), and what NewFromBig makes of zeros and infinities; the tables of IEEE 754 are in Spec/Special.lean.

Note: Mul and Quo of math/big for all operands are modelled in Model/BigMul.lean; they are not part of /repo. A panic of math/big takes the place of the NaN of IEEE 754.

Theorems: `C111_binary16`, `C111_binary16_new`, `C111_binary128`, `C111_binary128_new`, `C111_float80x86`, `C111_float80x86_new`

### C112 Computing with halves in float64 (proved)

Props/ViaDouble.lean: sums and products of halves have at most 41 and 22 bits, so they are doubles; NewFromFloat64 rounds to nearest in the normal range (C06) and keeps what is a half (C07). A quotient of integers of 11 bits is too far from a point half way between two halves for the rounding to double to lead there (`half_quotient_not_misled`).

Note: The operations of the language on float64 are not modelled; NearestDouble specifies their results. That Float64 is exact is C04. From 2^16 on NewFromFloat64 is described by C66.

Theorems: `C112_sum`, `C112_product`, `C112_quotient`, `C112_below`

### C113 Computing with halves in float32 (proved)

Props/ViaSingle.lean: a product of halves has at most 22 bits, so it is a single. A sum that float32 rounds is so near to the larger of the two halves that a midpoint between halves, which is not a half, is too far away from it (`sum_far`), and a quotient is too far from a midpoint as in C112; so the rounding to single does not lead to a midpoint, and rounding twice is rounding once (`via_single`).

Note: The operations of the language on float32 are not modelled; NearestSingle specifies their results. That Float32 is exact is C04.

Theorems: `C113_product`, `C113_quotient`, `C113_sum`, `C113_below`

### C114 A product and a sum of halves in float64 (proved)

Props/Fused.lean: a product of halves has at most 22 bits, so it is a double. If the sum is a multiple of 2^-24, it has few enough bits to be a double. Otherwise the product is fine and the sum is rounded only if the third operand dominates; that is a half, hence not a midpoint, and too far from one (`fused_far`). So the double is not misleading, and rounding twice is rounding once (`via_double`). The counterexample for float32 is computed.

Note: The operations of the language on float64 and float32 are not modelled; NearestDouble and NearestSingle specify their results. That Float64 is exact is C04.

Theorems: `C114_fused`, `C114_single_wrong`

### C115 Square roots of halves in float64 (proved)

Props/Root.lean, with the square root of Mathlib in the real numbers: the square of a midpoint between halves has at least 22 bits and an odd significand, so it is not a half, and it is so far from every half that the square root is not rounded to the midpoint (`root_not_halfway`). The double is therefore on the same side of every midpoint as the square root.

Note: math.Sqrt is not modelled; NearestRoot specifies its result as a double nearest to the real square root. That Float64 is exact is C04.

Theorems: `C115_root`

### C116 float64 arithmetic by way of binary128, and why float80x86 does not do for it (proved)

Props/Via128.lean: the result of math/big and NewFromBig is the IEEE result for binary128 (C104, C108), and Float64 rounds that correctly (C17). A product has at most 106 bits, so it is exact. A sum is rounded to 113 bits only if one operand dominates, which is a double and hence not a midpoint (`sum_far`), and a quotient of integers of 53 bits is too far from a midpoint of 54 bits (`quotient_far`); so rounding twice is rounding once (`via_quad`). The counterexample for float80x86 is computed.

Note: Add, Sub, Mul and Quo of math/big are modelled (C91); they are not part of /repo.

Theorems: `C116_sum`, `C116_product`, `C116_quotient`, `C116_extended_wrong`

### C117 float32 arithmetic by way of float80x86 (proved)

Props/ViaExtended.lean, as C116: the result of math/big and NewFromBig is the correctly rounded number of the format (C104, C108), Float32 rounds that correctly (C23), products of 48 bits are exact, and neither sums nor quotients of 24 bits come near enough to a midpoint of 25 bits to be rounded to it.

Note: Add, Sub, Mul and Quo of math/big are modelled (C91); they are not part of /repo.

Theorems: `C117_sum`, `C117_product`, `C117_quotient`

### C118 Square roots of halves in float32 (proved)

Props/RootSingle.lean, as C115 with float32 in between: the root would have to be within 2^-13 of a midpoint M of 12 bits, in units of its last bit, so that the argument differs from the square of M by less than one unit of M squared, and it cannot.

Note: The rounding of the square root to float32 is specified (NearestRoot), not modelled.

Theorems: `C118_root`

### C119 float32 arithmetic by way of binary128 (proved)

Props/Via128Single.lean, as C117 with C17 for Float32 and the larger precision; the bounds on how near a sum or quotient comes to a midpoint are those of C117.

Note: Add, Sub, Mul and Quo of math/big are modelled (C91); they are not part of /repo.

Theorems: `C119_sum`, `C119_product`, `C119_quotient`

### C120 Summing many halves in float64 (proved)

Props/ManySum.lean: every half is a multiple of 2^-24, so that every partial sum is one below 2^29, which has 53 bits; C06 for the conversion back. C120_exists shows that there is such a computation for every list.

Note: Addition of float64 is specified (NearestDouble), not modelled; the sign of a zero sum is left open.

Theorems: `C120_sum`, `C120_count`, `C120_order`, `C120_exists`

### C121 Which integers are kept (proved)

Props/Integers.lean: such an integer is n*2^0 or 2^p, hence a number of the format, and C03, C15, C21, C27 and C99 carry it through; 2^p + 1 is odd and has p + 1 bits.

Note: The integer is given as the number a big.Float holds; big.Float.SetInt64 and SetUint64, which are not called in /repo, are not modelled.

Theorems: `C121_binary16`, `C121_binary128`, `C121_float80x86`, `C121_uint64`, `C121_float128ppc`, `C121_best`, `C121_best_float128ppc`

### C122 Multiplying by a power of two only moves the exponent (proved)

Props/Scale.lean: from the formulas of C55; for NewFromFloat64, rounding to 11 bits commutes with multiplying by a power of two.

Note: For float128ppc the property is not claimed: there the low half may become subnormal.

Theorems: `C122_binary16`, `C122_binary16_float64`, `C122_binary128`, `C122_float80x86`

### C123 FormatFloat and FormatInt print integers alike (proved)

Props/IntegerText.lean: C89 determines the text; the shortest decimal that is read back as an integer below 2^p is an integer itself, hence a number of the format (C121), hence the same one.

Note: For FormatInt and FormatUint the integer is an int64 or uint64; C123_fixed and C123_shortest state the same for the numeral of any integer.

Theorems: `C123_fixed`, `C123_shortest`, `C123_formatInt`, `C123_formatUint`, `C123_bounds`

### C124 Length and order of the texts of FormatUint and FormatInt (proved)

Props/NumeralOrder.lean: from C39 and the value of a sequence of digits; the digits 0-9a-z are in ascending order.

Note: Texts are lists of characters; the order is that of their code points, which is the order of the bytes, since all of them are ASCII.

Theorems: `C124_length`, `C124_digit`, `C124_hex`, `C124_order`, `C124_padded`, `C124_longest`, `C124_int`, `C124_int_order`

### C125 Products of narrower numbers are exact (proved)

Props/ExactProduct.lean: the product has at most 106 (48) significant bits and lies in the normal range of the wider format, so the rounded result of C108 is the product itself.

Note: math/big multiplication is the model of C91.

Theorems: `C125_float64`, `C125_float32`

### C126 A sum of two products has one rounding (proved)

Props/TwoProducts.lean: the products are exact (C125); C104 for their sum and difference, which stays below 2^2049 (2^257); C106 that only zero gives zero.

Note: math/big arithmetic is the model of C91.

Theorems: `C126_float64`, `C126_float32`

## Axioms per theorem

`#print axioms` was run on every theorem named in `MANIFEST.json` (601). All depend on exactly `propext`, `Classical.choice` and
`Quot.sound`, except:

* `GoFloat.Binary128.C98_binary128_fewer`: Quot.sound, propext
* `GoFloat.Binary128.Gen.C84_false`: Quot.sound, propext
* `GoFloat.Binary128.Gen.C85_both`: propext
* `GoFloat.Binary16.C98_binary16_fewer`: Quot.sound, propext
* `GoFloat.C38_noExponent`: Quot.sound, propext
* `GoFloat.C78_false_big32`: Quot.sound, propext
* `GoFloat.C80_big_twice`: Quot.sound, propext
* `GoFloat.C80_binary128_floats`: Quot.sound, propext
* `GoFloat.C80_binary128_newFromBig`: Quot.sound, propext
* `GoFloat.C80_binary16_floats`: Quot.sound, propext
* `GoFloat.C80_binary16_newFromBig`: Quot.sound, propext
* `GoFloat.C80_float128ppc_floats`: Quot.sound, propext
* `GoFloat.C80_float80x86_floats`: Quot.sound, propext
* `GoFloat.C80_float80x86_newFromBig`: Quot.sound, propext
* `GoFloat.C80_isExact`: Quot.sound, propext
* `GoFloat.C83_ends`: Quot.sound, propext
* `GoFloat.C83_race_free`: Quot.sound, propext
* `GoFloat.C93_converse`: Quot.sound, propext
* `GoFloat.Float128ppc.C100_float128ppc_false`: propext
* `GoFloat.Float128ppc.C109_below`: Quot.sound, propext
* `GoFloat.Float128ppc.C26_float128ppc_bits`: none
* `GoFloat.Float128ppc.C31_false_negInf`: Quot.sound, propext
* `GoFloat.Float128ppc.C62_float128ppc_test_row`: Quot.sound, propext
* `GoFloat.Float128ppc.C80_newFromBig`: Quot.sound, propext
* `GoFloat.Float128ppc.C80_newFromBig_kept`: Quot.sound, propext
* `GoFloat.Float128ppc.C80_newFromBig_twice`: Quot.sound, propext
* `GoFloat.Float128ppc.C94_float128ppc_tie`: Quot.sound, propext
* `GoFloat.Float128ppc.C98_float128ppc_fewer`: Quot.sound, propext
* `GoFloat.Float80x86.C100_float80x86_false`: Quot.sound, propext
* `GoFloat.Float80x86.C92_float80x86_unnormal`: Quot.sound, propext
* `GoFloat.Float80x86.C98_float80x86_fewer`: Quot.sound, propext
* `GoFloat.Strconv.C39_append`: propext
* `GoFloat.Strconv.C39_illegal_base`: Quot.sound, propext
* `GoFloat.Strconv.C40_string_sign`: none
* `GoFloat.Strconv.C41_unchanged`: propext
* `GoFloat.Strconv.C46_append`: Quot.sound, propext
* `GoFloat.Strconv.C52_false`: Quot.sound, propext
* `GoFloat.Strconv.C52_size`: Quot.sound, propext
* `GoFloat.Strconv.C54_out_of_range`: Quot.sound, propext
* `GoFloat.Strconv.C81_float_not_all_or_nothing`: Quot.sound, propext
* `GoFloat.Strconv.C81_int_all_or_nothing`: Quot.sound, propext
* `GoFloat.Strconv.C81_no_free`: Quot.sound, propext
* `GoFloat.Strconv.C81_twice_fits`: Quot.sound, propext
* `GoFloat.Strconv.C81_twice_moved`: propext

No theorem depends on `sorryAx`, `Lean.ofReduceBool`, `Lean.trustCompiler` or an axiom of this project.
