{"id": "C01", "title": "binary16 bit fields are a lossless view of the encoding", "statement": "NewFromBits(b).Bits() == b; Signbit, Exp and Frac return the 1-bit sign, 5-bit exponent and 10-bit fraction of b, and b == sign<<15 | Exp<<10 | Frac.", "quantifier": "every uint16 bit pattern", "why_tests_cant": "tests look at a few dozen patterns; the claim is about every pattern and the three accessors jointly", "anchors": ["binary16/binary16.go: NewFromBits, Bits, Signbit, Exp, Frac"]}
{"id": "C02", "title": "binary16 Big decodes every bit pattern to its IEEE 754 value", "statement": "For every b, NewFromBits(b).Big() does not panic; nan is true exactly when the exponent is all ones and the fraction is non-zero (and then x is a zero carrying the sign); otherwise x is the signed infinity, signed zero, subnormal (-1)^s*frac*2^-24 or normal (-1)^s*(1+frac/2^10)*2^(Exp-15), with precision 11, mode ToNearestEven and accuracy Exact.", "quantifier": "every uint16 bit pattern", "why_tests_cant": "exhaustive tests compare against a float64 computed by the same reading of the format; they do not state the value as a rational, nor the absence of panics", "anchors": ["binary16/binary16.go: Float.Big"]}
{"id": "C03", "title": "binary16 survives a round trip through big.Float", "statement": "If f is not a NaN then NewFromBig(f.Big()) returns f bit for bit, with accuracy Exact.", "quantifier": "every binary16 value that is not NaN (normal, subnormal, zero, infinite, both signs)", "why_tests_cant": "a round trip law over all encodings and both functions; sampled tests do not exercise subnormals in both directions", "anchors": ["binary16/binary16.go: Float.Big, NewFromBig"]}
{"id": "C04", "title": "binary16 widening to float32 and float64 is exact", "statement": "f.Float64() and f.Float32() return the float with exactly the value and sign of f and accuracy Exact; a NaN gives the quiet NaN math.NaN() with the sign of f.", "quantifier": "every uint16 bit pattern", "why_tests_cant": "must hold for every pattern including subnormals and signed zeros", "anchors": ["binary16/binary16.go: Float.Float32, Float.Float64"]}
{"id": "C05", "title": "binary16 survives a round trip through float64 and float32", "statement": "NewFromFloat64(f.Float64()) and NewFromFloat32(f.Float32()) return f with accuracy Exact when f is not NaN, and the canonical NaN of the same sign when it is.", "quantifier": "every uint16 bit pattern", "why_tests_cant": "round trip law over all encodings", "anchors": ["binary16/binary16.go: NewFromFloat64, NewFromFloat32, Float.Float64, Float.Float32"]}
{"id": "C06", "title": "binary16.NewFromFloat64/NewFromFloat32 return the nearest half", "statement": "For every float x that is not NaN the result is a half nearest to x, ties to even, and a value beyond the half range becomes an infinity (doc: 'returns the nearest half precision floating-point number for x').", "quantifier": "all float64 / float32 inputs", "why_tests_cant": "2^64 inputs; ties, subnormals and overflow lie outside the sampled tests", "anchors": ["binary16/binary16.go: NewFromFloat64, NewFromFloat32, NewFromBig"]}
{"id": "C07", "title": "binary16 constructors report the true accuracy", "statement": "The accuracy returned by NewFromFloat32, NewFromFloat64 and NewFromBig is Exact iff the half equals the argument, Below iff it is smaller and Above iff it is larger (big.Accuracy contract).", "quantifier": "all inputs of the three constructors", "why_tests_cant": "the tests only use inputs that are representable, or one that is flushed to zero", "anchors": ["binary16/binary16.go: NewFromFloat32, NewFromFloat64, NewFromBig"]}
{"id": "C08", "title": "binary16.NewFromBig returns the nearest half", "statement": "NewFromBig(x) is a half nearest to x, ties to even (doc comment), exactly x whenever x is representable.", "quantifier": "every big.Float of every precision and exponent", "why_tests_cant": "unbounded precision and exponent", "anchors": ["binary16/binary16.go: NewFromBig"]}
{"id": "C09", "title": "binary16: a finite number never becomes NaN and overflow gives infinity", "statement": "For a finite x, the result of NewFromBig / NewFromFloat64 is not NaN, and if |x| >= 65520 it is the infinity with the sign of x.", "quantifier": "every finite big.Float and float64", "why_tests_cant": "needs all magnitudes above the range; untested", "anchors": ["binary16/binary16.go: NewFromBig"]}
{"id": "C10", "title": "binary16: underflow gives a signed zero or the smallest subnormal", "statement": "For 0 < |x| < 2^-24 the result of NewFromBig / NewFromFloat64 is a zero or the smallest subnormal, with the sign of x.", "quantifier": "every non-zero big.Float / float64 smaller than 2^-24", "why_tests_cant": "an infinite set of inputs; the only test in it has a one-bit mantissa", "anchors": ["binary16/binary16.go: NewFromBig"]}
{"id": "C11", "title": "The sign bit survives every conversion into binary16, binary128 and float80x86", "statement": "For every x, including zeros, infinities, NaNs and values outside the range, the result of NewFromBig / NewFromFloat64 / NewFromFloat32 has Signbit() equal to the sign of x.", "quantifier": "every input of the nine constructors", "why_tests_cant": "must hold on every branch, also the overflow and underflow ones", "anchors": ["binary16/binary16.go: NewFromBig, NewFromFloat64, NewFromFloat32", "binary128/binary128.go: NewFromBig, NewFromFloat64, NewFromFloat32", "float80x86/float80x86.go: NewFromBig, NewFromFloat64, NewFromFloat32"]}
{"id": "C12", "title": "Special values map to special values", "statement": "In binary16, binary128 and float80x86: +-Inf, +-0 and +-NaN as float64 / float32 (and +-Inf, +-0 as big.Float) give exactly Inf, NegInf, Zero, NegZero, NaN, NegNaN with accuracy Exact; these six constants decode back to those values.", "quantifier": "every NaN payload, every precision/mode of the big.Float argument", "why_tests_cant": "all NaN payloads and all big.Float representations", "anchors": ["binary16/binary16.go: NaN, NegNaN, Inf, NegInf, Zero, NegZero", "binary128/binary128.go: NaN, NegNaN, Inf, NegInf, Zero, NegZero", "float80x86/float80x86.go: NaN, NegNaN, Inf, NegInf, Zero, NegZero"]}
{"id": "C13", "title": "binary128 bit fields are a lossless view of the encoding", "statement": "NewFromBits(a,b).Bits() == (a,b); Signbit, Exp, Frac are the 1+15+112 bit fields and reassemble to a, b. Exp must not depend on the platform's int size.", "quantifier": "every pair of uint64", "why_tests_cant": "2^128 patterns, two platforms", "anchors": ["binary128/binary128.go: NewFromBits, Bits, Signbit, Exp, Frac"]}
{"id": "C14", "title": "binary128 Big decodes every bit pattern to its IEEE 754 value", "statement": "As C02 for quadruple precision: subnormal (-1)^s*frac*2^-16494, normal (-1)^s*(1+frac/2^112)*2^(Exp-16383), precision 113, Exact, never panics.", "quantifier": "all 2^128 bit patterns", "why_tests_cant": "2^128 patterns", "anchors": ["binary128/binary128.go: Float.Big"]}
{"id": "C15", "title": "binary128 survives a round trip through big.Float", "statement": "If f is not NaN then NewFromBig(f.Big()) is f bit for bit with accuracy Exact.", "quantifier": "all non-NaN binary128 values", "why_tests_cant": "2^128 patterns", "anchors": ["binary128/binary128.go: NewFromBig, Float.Big"]}
{"id": "C16", "title": "float64 and float32 embed losslessly in binary128", "statement": "For every non-NaN x, NewFromFloat64(x) has exactly the value and sign of x, accuracy Exact, and its Float64() is x bit for bit with accuracy Exact; likewise for float32 / NewFromFloat32 / Float32.", "quantifier": "all non-NaN float64 and float32", "why_tests_cant": "2^64 inputs, incl. all subnormals", "anchors": ["binary128/binary128.go: NewFromFloat64, NewFromFloat32, Float.Float64, Float.Float32"]}
{"id": "C17", "title": "binary128.Float64/Float32 round correctly and report the true accuracy", "statement": "The result is the IEEE nearest float (ties to even, overflow to infinity at the half-ulp threshold, gradual underflow), with the sign of f, and the accuracy is the sign of result - f; NaN keeps its sign.", "quantifier": "all 2^128 bit patterns", "why_tests_cant": "2^128 patterns; ties and the overflow threshold", "anchors": ["binary128/binary128.go: Float.Float64, Float.Float32"]}
{"id": "C18", "title": "binary128.NewFromBig returns the nearest quadruple with true accuracy", "statement": "NewFromBig(x) is a binary128 value nearest to x (ties to even), x itself if representable; overflow gives infinity; the accuracy is the sign of result - x.", "quantifier": "every big.Float", "why_tests_cant": "unbounded precision and exponent", "anchors": ["binary128/binary128.go: NewFromBig"]}
{"id": "C19", "title": "float80x86 bit fields are a lossless view of the encoding", "statement": "NewFromBits(se,m).Bits() == (se,m); Signbit, Exp, Lead, Frac are the fields and reassemble to se, m.", "quantifier": "every (uint16, uint64)", "why_tests_cant": "2^80 patterns", "anchors": ["float80x86/float80x86.go: NewFromBits, Bits, Signbit, Exp, Lead, Frac"]}
{"id": "C20", "title": "float80x86 Big decodes every bit pattern", "statement": "Never panics. Exponent all ones: infinity iff m == 1<<63, NaN otherwise. Otherwise the value is (-1)^s * m * 2^(max(Exp,1)-16383-63), for normal, subnormal, pseudo-denormal and unnormal encodings alike, with the sign kept on zero; precision 64, accuracy Exact.", "quantifier": "all 2^80 bit patterns", "why_tests_cant": "2^80 patterns, incl. non-canonical ones no test has", "anchors": ["float80x86/float80x86.go: Float.Big"]}
{"id": "C21", "title": "float80x86 survives a round trip through big.Float", "statement": "If f is not NaN and canonical (lead bit set iff Exp != 0) then NewFromBig(f.Big()) is f with accuracy Exact; a pseudo-denormal comes back as the normal encoding with the same value.", "quantifier": "all canonical non-NaN float80x86 values", "why_tests_cant": "2^79 patterns", "anchors": ["float80x86/float80x86.go: NewFromBig, Float.Big"]}
{"id": "C22", "title": "float64 and float32 embed losslessly in float80x86", "statement": "As C16 for float80x86; moreover the encoding produced is canonical.", "quantifier": "all non-NaN float64 and float32", "why_tests_cant": "2^64 inputs", "anchors": ["float80x86/float80x86.go: NewFromFloat64, NewFromFloat32, Float.Float64, Float.Float32"]}
{"id": "C23", "title": "float80x86.Float64/Float32 round correctly and report the true accuracy", "statement": "As C17 for float80x86.", "quantifier": "all 2^80 bit patterns", "why_tests_cant": "2^80 patterns", "anchors": ["float80x86/float80x86.go: Float.Float64, Float.Float32"]}
{"id": "C24", "title": "float80x86.NewFromBig returns the nearest value with true accuracy", "statement": "As C18 for float80x86; in particular values below the smallest subnormal do not become large.", "quantifier": "every big.Float", "why_tests_cant": "unbounded precision and exponent", "anchors": ["float80x86/float80x86.go: NewFromBig"]}
{"id": "C25", "title": "bfloat decodes every bit pattern", "statement": "NewFromBits/Signbit/Exp/Frac are the 1+8+7 fields; Big never panics and returns the bfloat16 value: the value of the float32 with the same upper 16 bits, NaN flag iff that float32 is NaN.", "quantifier": "every uint16 bit pattern", "why_tests_cant": "tests have ten patterns", "anchors": ["bfloat/bfloat.go: NewFromBits, Big, Signbit, Exp, Frac"]}
{"id": "C26", "title": "float128ppc bit patterns are preserved", "statement": "NewFromBits(a,b).Bits() == (a,b).", "quantifier": "every pair of uint64 (non-NaN halves; NaN payloads up to float64 moves)", "why_tests_cant": "2^128 patterns", "anchors": ["float128ppc/float128ppc.go: NewFromBits, Bits"]}
{"id": "C27", "title": "float128ppc.Big is the exact sum of the two doubles, rounded to 106 bits", "statement": "If neither half is NaN, x is high+low rounded to 106 bits ties to even (exactly high+low when that fits), with accuracy the sign of the rounding error; zero sums take their sign from high when high is negative; nan is reported iff a half is NaN; Big does not panic.", "quantifier": "all pairs of doubles", "why_tests_cant": "2^128 pairs; cancellation, infinities of opposite sign", "anchors": ["float128ppc/float128ppc.go: Float.Big, IsNaN"]}
{"id": "C28", "title": "float64 and float32 embed losslessly in float128ppc", "statement": "For every non-NaN x NewFromFloat64(x) is (x, +0) with accuracy Exact and Float64() of it is x; NewFromFloat32 likewise.", "quantifier": "all non-NaN float64 and float32", "why_tests_cant": "2^64 inputs", "anchors": ["float128ppc/float128ppc.go: NewFromFloat64, NewFromFloat32, Float.Float64, Float.Float32"]}
{"id": "C29", "title": "float128ppc.NewFromBig splits a number into a double-double of the same value", "statement": "For finite x with 2^-969 <= |x| < MaxFloat64+half ulp: high is the double nearest to x rounded to 106 bits, low the exact remainder, so high+low equals x rounded to 106 bits, |low| <= ulp(high)/2, and accuracy is Exact iff high+low equals x.", "quantifier": "every big.Float in range", "why_tests_cant": "unbounded precision", "anchors": ["float128ppc/float128ppc.go: NewFromBig"]}
{"id": "C30", "title": "float128ppc.NewFromBig is total and does not modify its argument", "statement": "NewFromBig(x) returns for every big.Float x (no panic) and leaves x unchanged.", "quantifier": "every big.Float", "why_tests_cant": "the failing region (overflow) is never tested; mutation needs a before/after statement", "anchors": ["float128ppc/float128ppc.go: NewFromBig"]}
{"id": "C31", "title": "float128ppc special values", "statement": "NewFromBig(+-Inf), NewFromBig(+-0), NewFromFloat64(+-Inf, +-0, +-NaN) give values that decode back to the same special value with the same sign; Inf, NegInf, Zero, NegZero, NaN, NegNaN denote what they say.", "quantifier": "all special inputs, all NaN payloads", "why_tests_cant": "NegInf and NaN signs have no test", "anchors": ["float128ppc/float128ppc.go: NaN, NegNaN, Inf, NegInf, Zero, NegZero, NewFromBig, NewFromFloat64, Float64"]}
{"id": "C32", "title": "float128ppc survives a round trip through big.Float", "statement": "If high is the double nearest to high+low and high+low fits in 106 bits (a canonical pair), NewFromBig(f.Big()) returns (high, low) with accuracy Exact.", "quantifier": "all canonical pairs", "why_tests_cant": "2^128 pairs", "anchors": ["float128ppc/float128ppc.go: NewFromBig, Float.Big"]}
{"id": "C33", "title": "IsExact32 and IsExact64 are sound", "statement": "If IsExact32(x) (IsExact64(x)) is true, some float32 (float64) has exactly the value and sign of x.", "quantifier": "every big.Float", "why_tests_cant": "unbounded precision and exponent", "anchors": ["float.go: IsExact32, IsExact64"]}
{"id": "C34", "title": "IsExact16 is sound", "statement": "If IsExact16(x) is true, some binary16 value has exactly the value of x.", "quantifier": "every big.Float", "why_tests_cant": "the decision compares decimal strings; wrong answers sit at isolated values", "anchors": ["float.go: IsExact16"]}
{"id": "C35", "title": "IsExact16/32/64 are complete", "statement": "If a float16/32/64 has exactly the value of x then IsExact16/32/64(x) is true.", "quantifier": "every representable x", "why_tests_cant": "the decision compares decimal strings; wrong answers are spread over the whole range", "anchors": ["float.go: IsExact16, IsExact32, IsExact64"]}
{"id": "C36", "title": "IsExact16/32/64 answer for every number", "statement": "IsExact16/32/64(x) return a bool, without panicking, for every big.Float x including infinities, and the answer does not depend on x's precision, mode or accuracy fields nor on its sign.", "quantifier": "every big.Float", "why_tests_cant": "infinities untested; unbounded inputs", "anchors": ["float.go: IsExact16, IsExact32, IsExact64, trimZeros"]}
{"id": "C37", "title": "IsExact on integers", "statement": "For every integer n with |n| <= 2^11 (2^24, 2^53), IsExact16 (IsExact32, IsExact64) of n is true.", "quantifier": "all integers in the ranges, all representations of them as big.Float", "why_tests_cant": "2^54 integers", "anchors": ["float.go: IsExact16, IsExact32, IsExact64"]}
{"id": "C38", "title": "Trimming zeros keeps the number", "statement": "Dropping the trailing zeros of a mantissa in scientific notation leaves the sign, the exponent and the numeric value unchanged, leaves no trailing zero after the point and no bare point; a text without exponent panics.", "quantifier": "every digit string", "why_tests_cant": "unbounded strings", "anchors": ["float.go: trimZeros"]}
{"id": "C39", "title": "FormatUint/FormatInt print the canonical numeral", "statement": "For 2 <= base <= 36 and every 64-bit value, FormatUint/FormatInt/Itoa/AppendInt/AppendUint print the sign and the unique numeral without leading zeros with that value (identically on 32- and 64-bit hosts); other bases panic (except for the small-value fast path at base 10).", "quantifier": "all 64-bit values, all bases, all dst", "why_tests_cant": "2^64 values x 35 bases x two hosts", "anchors": ["internal/strconv/itoa.go: FormatUint, FormatInt, Itoa, AppendInt, AppendUint, formatBits, small"]}
{"id": "C40", "title": "Multiprecision decimals are exact", "statement": "Assigning a uint64 and shifting by k bits yields exactly v*2^k as a digit string without leading or trailing zeros, as long as it has at most 800 digits, which holds for every float64; no intermediate machine-word operation overflows, on 32- and 64-bit hosts. The text of a decimal (String) denotes its value, without superfluous zeros. Shifting a decimal whose result needs more than 800 digits never fails and never gives a value that is too large; each step of at most 28 or 60 bits loses less than 10^-799 of the value, and the truncation mark is set exactly if something was lost.", "quantifier": "all v and k", "why_tests_cant": "unbounded shifts; 61-entry table", "anchors": ["internal/strconv/decimal.go: Assign, Shift, leftShift, rightShift, leftcheats, prefixIsLessThan, trim"]}
{"id": "C41", "title": "Decimal rounding is correct", "statement": "Round(nd) yields the nd-digit decimal nearest to the value (ties to even), RoundDown truncates, RoundUp rounds up; RoundedInteger is the nearest integer (ties to even), for values that round to less than 2^64.", "quantifier": "all decimals and nd", "why_tests_cant": "unbounded digit strings; carries through runs of 9", "anchors": ["internal/strconv/decimal.go: Round, RoundUp, RoundDown, shouldRoundUp, RoundedInteger"]}
{"id": "C42", "title": "FormatFloat with precision -1 round-trips", "statement": "For every finite float of size 16, 32 or 64 the decimal printed with precision -1 lies in the rounding interval of the float: a correctly rounding parser returns the float itself.", "quantifier": "every finite float of the three sizes", "why_tests_cant": "2^64 values, two algorithms with a fallback", "anchors": ["internal/strconv/ftoa.go: FormatFloat, genericFtoa, bigFtoa, roundShortest", "internal/strconv/extfloat.go: ShortestDecimal, AssignComputeBounds"]}
{"id": "C43", "title": "FormatFloat with precision -1 is shortest", "statement": "No decimal with fewer digits lies in the rounding interval.", "quantifier": "every finite float of the three sizes", "why_tests_cant": "2^64 values", "anchors": ["internal/strconv/ftoa.go: FormatFloat, roundShortest", "internal/strconv/extfloat.go: ShortestDecimal"]}
{"id": "C44", "title": "The fast shortest-digits algorithm is sound", "statement": "Whenever the fast (Grisu) path delivers digits, they denote a decimal strictly inside the rounding interval, of minimal length and closer to the float than any other of that length; it never reads or writes outside its buffers and always terminates.", "quantifier": "every mantissa/exponent of the three formats", "why_tests_cant": "2^64 values; error analysis of 64-bit products with 87 approximate powers of ten", "anchors": ["internal/strconv/extfloat.go: ShortestDecimal, frexp10, frexp10Many, Multiply, Normalize, adjustLastDigit, powersOfTen"]}
{"id": "C45", "title": "The table of powers of ten is correctly rounded", "statement": "Every entry of the table approximates its power of ten to within half a unit in the last of 64 places, is normalised, and the scaling search always finds an entry.", "quantifier": "all 87 entries, all exponents of the three formats", "why_tests_cant": "an off-by-one in one entry or index is invisible to samples", "anchors": ["internal/strconv/extfloat.go: powersOfTen, smallPowersOfTen, frexp10"]}
{"id": "C46", "title": "FormatFloat layout", "statement": "The text printed by FormatFloat for 'e', 'f', 'g', 'b', NaN and infinities has the documented shape; read back as a number, the 'e', 'E' and 'f' text denotes exactly the digits and exponent computed; 'b' prints exactly mantissa and exponent of the float.", "quantifier": "every digit string, exponent and precision", "why_tests_cant": "unbounded", "anchors": ["internal/strconv/ftoa.go: genericFtoa, formatDigits, fmtE, fmtF, fmtB"]}
{"id": "C47", "title": "FormatFloat with fixed precision rounds correctly", "statement": "With precision n >= 0 and format 'e' the digits printed are the float's exact value rounded to n+1 digits, half to even (exact decimal path); the fast path agrees whenever it answers.", "quantifier": "every finite float, every precision", "why_tests_cant": "2^64 values x unbounded precision", "anchors": ["internal/strconv/ftoa.go: bigFtoa", "internal/strconv/extfloat.go: FixedDecimal, adjustLastDigitFixed"]}
{"id": "C48", "title": "Extended float arithmetic is within half a unit", "statement": "Normalising keeps the value exactly; multiplying two 64-bit mantissas gives the correctly rounded upper half of the product without overflow; the bounds computed around a float are exactly the midpoints to its neighbours.", "quantifier": "all 64-bit mantissas", "why_tests_cant": "2^128 pairs", "anchors": ["internal/strconv/extfloat.go: Multiply, Normalize, AssignComputeBounds"]}
{"id": "C49", "title": "Decimal to float conversion reports success only when correct", "statement": "When scaling a decimal mantissa by a power of ten reports success, rounding the result to the target format yields the float nearest to the decimal.", "quantifier": "all mantissas, exponents, formats", "why_tests_cant": "2^64 x 700 inputs", "anchors": ["internal/strconv/extfloat.go: AssignDecimal, floatBits"]}
{"id": "C50", "title": "float128ppc Float64 and Float32 are the correctly rounded sum of the two doubles", "statement": "For finite halves with a non-zero sum, Float64() and Float32() return high+low correctly rounded (to nearest, ties to even) to the target format.", "quantifier": "all pairs of finite doubles", "why_tests_cant": "double rounding (first to 106 bits, then to 53 or 24) only shows on rare pairs among 2^128", "anchors": ["float128ppc/float128ppc.go: Float.Float64, Float.Float32, Float.Big"]}
{"id": "C51", "title": "FormatFloat with precision -1 prints the closest of the shortest decimals", "statement": "Among the decimals with as many significant digits as the text printed that round back to the float, the one printed is the closest to the float's value.", "quantifier": "every finite float of each size, every decimal format", "why_tests_cant": "the decimals it fails on are rare among 2^64 values; only a proof tells whether there are any", "anchors": ["internal/strconv/ftoa.go: FormatFloat, roundShortest", "internal/strconv/extfloat.go: ShortestDecimal"]}
{"id": "C52", "title": "FormatFloat returns a text for every input", "statement": "FormatFloat and AppendFloat do not panic: for every float, format letter, precision and bit size of 16, 32 or 64 they return a text; unknown letters print a percent sign and the letter.", "quantifier": "every float64, every byte as format, every precision", "why_tests_cant": "2^64 values x 256 letters x unbounded precision; panics are in internal checks that only rare combinations reach", "anchors": ["internal/strconv/ftoa.go: FormatFloat, AppendFloat, genericFtoa", "internal/strconv/extfloat.go: FixedDecimal"]}
{"id": "C53", "title": "Shortest formatting is short", "statement": "With a negative precision FormatFloat and AppendFloat print at most 17 significant digits for a float64, 9 for a float32 and 5 for a binary16, in every decimal format.", "quantifier": "every finite float of the three sizes, formats e, E, f, g, G", "why_tests_cant": "2^64 floats; the bound is attained only by some", "anchors": ["internal/strconv/ftoa.go: FormatFloat, AppendFloat, roundShortest", "internal/strconv/extfloat.go: ShortestDecimal"]}
{"id": "C54", "title": "Decimal to float conversion gives up only near a tie", "statement": "Scaling a nonzero decimal mantissa by a power of ten between 10^-348 and 10^347 reports failure only if the decimal lies within a relative distance 2^-55 of the middle between two neighbouring floats of the target format (for decimals of at least half the smallest subnormal, and mantissas of at least 61 bits if digits were dropped); outside that range of exponents it always reports failure.", "quantifier": "all mantissas, exponents, signs and the three formats", "why_tests_cant": "2^64 x 700 inputs; ties are rare and random tests do not meet their neighbourhood", "anchors": ["internal/strconv/extfloat.go:243-311"]}
{"id": "C55", "title": "The constructors depend on the value only, by a stated formula", "statement": "NewFromBig of binary16, binary128 and float80x86 depends only on the value (sign included) of its argument, not on its precision, rounding mode, accuracy or internal representation; for every finite nonzero number the bits and the accuracy are given by one formula with three ranges of the exponent. binary16.NewFromFloat64 is NewFromBig of the number rounded to 11 significant bits, nearest even, and NewFromFloat32 is NewFromFloat64 of the same number.", "quantifier": "every well-formed big.Float, every float64 and every float32", "why_tests_cant": "the domain of big.Float is infinite, and precision, mode and accuracy are a hidden part of it that tests leave at their defaults", "anchors": ["binary16/binary16.go: NewFromBig, NewFromFloat64, NewFromFloat32", "binary128/binary128.go: NewFromBig", "float80x86/float80x86.go: NewFromBig"]}
{"id": "C56", "title": "Conversions between the packages are lossless", "statement": "Converting through big.Float (NewFromBig of Big) from binary16 or bfloat to binary128 or float80x86, and from float80x86 to binary128, keeps the value of everything but NaNs and reports Exact; converting back returns the original encoding (the canonical one for float80x86). A value of a wide type that is a value of a narrow one converts to it exactly. Going through float64 gives the same result, and a number that is a double becomes that double and zero in float128ppc.", "quantifier": "every encoding that is not a NaN", "why_tests_cant": "2^80 and 2^128 encodings, and no test crosses packages", "anchors": ["binary16/binary16.go:87-160,203-260", "binary128/binary128.go:88-186,227-280", "float80x86/float80x86.go:97-183,224-282", "bfloat/bfloat.go:30-85", "float128ppc/float128ppc.go:82-121"]}
{"id": "C57", "title": "Conversions are monotone", "statement": "Conversions never invert the order of the extended number line: if one input is at most another, so are the results, for Float64 and Float32 of binary128 and float80x86 and for NewFromBig, NewFromFloat64 and NewFromFloat32 into binary16, binary128 and float80x86.", "quantifier": "every pair of inputs that are not NaNs", "why_tests_cant": "a statement about pairs: 2^256 for binary128", "anchors": ["binary16/binary16.go:57-160", "binary128/binary128.go:88-225", "float80x86/float80x86.go:97-222"]}
{"id": "C58", "title": "Negating the argument only negates the result", "statement": "The constructors and conversions of the formats with one sign bit treat the sign as nothing but a sign. For any two big.Float variables of opposite values (with any precision, rounding mode and accuracy each), NewFromBig of binary16, binary128 and float80x86 gives results that differ in the sign bit only, with the same accuracy; the same holds for NewFromFloat32 and NewFromFloat64 with arguments of opposite sign, NaNs of any payload included. Big of a value with the other sign bit is the negated number with the same NaN flag (binary16, binary128, float80x86, bfloat), and Float32 and Float64 are negated with the accuracy turned from Below to Above and back. FormatFloat of a negated number is, for every known format letter, precision and size, the text of the number with a minus sign in front, except that an infinity changes from +Inf to -Inf and a NaN has no sign; for unknown letters the sign is not printed at all. IsExact16, IsExact32 and IsExact64 answer (or panic) alike for a number and its negation.", "quantifier": "for all pairs of big.Float, float32, float64 or format values of opposite sign (zeros, infinities, NaNs, subnormals, ties included), all format letters, precisions and sizes 16, 32 and 64", "why_tests_cant": "The sign is carried by separate branches in each function, and asymmetric rounding (for instance a directed mode leaking from an intermediate big.Float) would show only for rare arguments; a test compares a handful of pairs.", "anchors": ["binary16/binary16.go:57-174", "binary16/binary16.go:174-240", "binary128/binary128.go:88-190", "binary128/binary128.go:198-270", "float80x86/float80x86.go:97-190", "float80x86/float80x86.go:195-270", "bfloat/bfloat.go:30-70", "internal/strconv/ftoa.go:52-165", "internal/strconv/ftoa.go:344-452", "float.go:14-46"]}
{"id": "C59", "title": "FormatFloat preserves order and tells numbers apart", "statement": "With a negative precision, of two distinct finite floats the smaller is printed as a smaller number, whatever the decimal format letters, and distinct floats (zeros of different sign and infinities included) never have the same text, except that all NaNs are printed alike; the same holds for finite floats in the binary format. With a precision of 0 or more, a float that is not greater is printed as a number that is not greater.", "quantifier": "all pairs of floats of size 16, 32 or 64, all decimal formats and precisions, with and without the fast algorithms", "why_tests_cant": "a statement about all pairs of floats: 2^128 for float64, and the fast and exact algorithms can meet in a pair", "anchors": ["internal/strconv/ftoa.go:52-165", "internal/strconv/ftoa.go:241-335", "internal/strconv/extfloat.go:359-511", "internal/strconv/extfloat.go:513-649", "internal/strconv/ftoa.go:432-452"]}
{"id": "C60", "title": "17, 9 and 5 digits identify a float", "statement": "FormatFloat with precision 16 or more in the exponential formats, or 17 or more in the general formats, prints a number that is rounded back to the same float64; 8 and 9 are enough for size 32, 4 and 5 for size 16.", "quantifier": "every finite float of the three sizes, every such precision", "why_tests_cant": "2^64 floats and unboundedly many precisions; the fast path for fixed precision is used for up to 17 digits", "anchors": ["internal/strconv/ftoa.go:52-165", "internal/strconv/extfloat.go:359-511"]}
{"id": "C61", "title": "Decimals of 15, 6 and 3 digits survive", "statement": "A decimal number of at most 15 significant digits, rounded to the nearest float64 that is not subnormal, is exactly the number that FormatFloat prints for the float64 with a negative precision, and with 15 digits in the exponential and general formats; 6 digits survive in a float32 and 3 in a half.", "quantifier": "every decimal with that many digits whose nearest float is finite and normal, all decimal formats", "why_tests_cant": "9*10^14 mantissas times 600 exponents", "anchors": ["internal/strconv/ftoa.go:52-165", "internal/strconv/ftoa.go:241-335", "internal/strconv/extfloat.go:513-649"]}
{"id": "C62", "title": "Exactly which double-doubles survive a round trip through big.Float", "statement": "NewFromBig(f.Big()) returns f bit for bit exactly when f is the positive infinity (+Inf, +0), or both halves are finite, high is the double nearest to high+low, the sum fits in 106 bits and low is not -0; in particular NaNs, negative infinities and pairs whose sum needs more than 106 bits never come back (one row of the package's own test table is such a pair).", "quantifier": "every pair of 64-bit patterns", "why_tests_cant": "2^128 pairs; an exact characterisation needs both directions for all of them", "anchors": ["float128ppc/float128ppc.go: Big", "float128ppc/float128ppc.go: NewFromBig", "float128ppc/float128ppc_test.go: TestRoundTrip"]}
{"id": "C63", "title": "Enough digits print the exact value", "statement": "FormatFloat with so large a precision that nothing has to be rounded away prints the exact value of the number. For size 64 these are 1074 digits after the point with 'f', 766 with 'e' and 'E', and 767 significant digits with 'g' and 'G'; for size 32 they are 149, 111 and 112; for size 16 they are 24, 20 and 21. The numbers of significant digits cannot be lowered: in each size there is a number whose exact decimal expansion has that many.", "quantifier": "For all finite values of the three sizes, all precisions at least as large, both settings of the package's optimisation switch, 32-bit and 64-bit machines.", "why_tests_cant": "The claim is about an exact equality of a decimal expansion of up to 767 digits with a binary number, for all 2^64 values and unboundedly many precisions; a test compares with another printer.", "anchors": ["internal/strconv/ftoa.go:52", "internal/strconv/ftoa.go:168", "internal/strconv/decimal.go:315"]}
{"id": "C64", "title": "The format letter only changes the layout", "statement": "'E' and 'G' print what 'e' and 'g' print, with the letter e made a capital and nothing else changed, for every value (infinities and NaNs too), precision and size. All negative precisions print the same text. With a negative precision all five decimal letters denote the same number, and 'g' prints exactly the text of 'f' if that number is zero or at least 0.0001 and below 1000000, and exactly the text of 'e' otherwise. With a precision, 'g' with n+1 digits denotes the same number as 'e' with n, and 'g' with 0 is 'g' with 1.", "quantifier": "For all float64 values, precisions and sizes, both settings of the package's optimisation switch, 32-bit and 64-bit machines; the last two sentences for finite values of the size.", "why_tests_cant": "The claim relates the texts of two calls for all inputs; tests check single texts.", "anchors": ["internal/strconv/ftoa.go:52", "internal/strconv/ftoa.go:204", "internal/strconv/ftoa.go:344"]}
{"id": "C65", "title": "IsExact16 implies IsExact32 implies IsExact64", "statement": "A number that IsExact16 accepts is accepted by IsExact32 and by IsExact64, and one that IsExact32 accepts is accepted by IsExact64; a number that IsExact32 accepts has at most nine significant decimal digits.", "quantifier": "every big.Float", "why_tests_cant": "compares three functions, each of which prints and rounds, on unboundedly many numbers; IsExact16 accepts numbers that are not binary16 values", "anchors": ["float.go: IsExact16, IsExact32, IsExact64"]}
{"id": "C66", "title": "What NewFromBig and NewFromFloat64 return denotes, for every number", "statement": "For every finite number the value of the result of NewFromBig of binary16, binary128 and float80x86 is given in closed form; in particular exactly which numbers become NaN and which an infinity. binary16.NewFromFloat64 makes an infinity of exactly the numbers with magnitude in [2^(16+32k)(1-2^-12), 2^(16+32k)(1+2^-11)] and a NaN of those in (2^(16+32k)(1+2^-11), 2^(17+32k)(1-2^-12)) for some k >= 0, for example of 65569 up to 131040.", "quantifier": "every finite big.Float; every finite float64", "why_tests_cant": "unbounded precision and exponent; the exponent wraps around with a period of 32 (32768) binades", "anchors": ["binary16/binary16.go: NewFromBig, NewFromFloat64", "binary128/binary128.go: NewFromBig", "float80x86/float80x86.go: NewFromBig"]}
{"id": "C67", "title": "Exactly when the reported accuracy is true", "statement": "For every finite non-zero number a condition is given under which the accuracy returned by NewFromBig of binary16, binary128 and float80x86 is true, and it is false otherwise: in the normal range, that the number is positive or exact; for subnormals, that it is exact; beyond the range only by accident. binary16.NewFromFloat64 reports Below if the number rounded to 11 bits is under 2^-24, Above if it is 2^17 or more, and Exact for every number between, so that there it is true only for binary16 values.", "quantifier": "every finite non-zero big.Float; every finite float64", "why_tests_cant": "unbounded precision and exponent", "anchors": ["binary16/binary16.go: NewFromBig, NewFromFloat64", "binary128/binary128.go: NewFromBig", "float80x86/float80x86.go: NewFromBig"]}
{"id": "C68", "title": "The generated test vectors are right", "statement": "The program binary16/gen.go never panics, and the two tables it writes list every encoding of a number exactly once, each with the float64 of that number; every check the generated tests make on a row passes. The program binary128/gen.go, whatever exponents (1 to 0x7FFE) and 112-bit mantissas are drawn, never panics, lists both signs of every combination, prints in each row the number IEEE 754 assigns to its encoding, and the comparisons of the generated tests with NewFromBits, Float64, NewFromFloat64 and NewFromFloat32 pass.", "quantifier": "all 63488 rows of the binary16 tables; every list of exponents and mantissas for binary128", "why_tests_cant": "the tests are these tables: they cannot check themselves, and the binary128 tables are a random sample", "anchors": ["binary16/gen.go", "binary16/extra_test.tmpl", "binary128/gen.go", "binary128/extra_test.tmpl"]}
{"id": "C69", "title": "Float64 of a normalised double-double is its high half, with one exception", "statement": "For a float128ppc value whose halves are finite and whose high half is the float64 nearest to their sum (the normal form of a double-double), Float64 returns the high half bit for bit. The one exception: when the high half is odd and the low half is, in magnitude, the largest float64 below half a unit in the last place of the high half, the 106-bit sum rounds to the midpoint and Float64 returns the neighbour of the high half (which can be an infinity).", "quantifier": "every pair of 64-bit patterns in normal form", "why_tests_cant": "the exception needs one particular low half out of 2^64 for each odd high half", "anchors": ["float128ppc/float128ppc.go"]}
{"id": "C70", "title": "float128ppc conversions are monotone and treat the sign as a sign", "statement": "Of two double-doubles, the one with the smaller exact sum of halves (infinities included) never has the greater Big, Float64 or Float32. Negating both halves negates Big, Float64 and Float32 and turns the accuracy around, also for a sum of zero; a pair without a sum reports NaN, or panics, together with its negation. NewFromBig of the smaller of two numbers never gives the pair with the greater sum, from the overflow threshold down to zero, and NewFromBig of a negated number is the negated pair, except that a zero low half is +0 for both (arguments that round to nearest even or have at most 106 bits).", "quantifier": "all pairs of double-doubles; all pairs of big.Float variables below the overflow threshold", "why_tests_cant": "order is a statement about pairs of inputs, and the sum is rounded twice on the way", "anchors": ["float128ppc/float128ppc.go"]}
{"id": "C71", "title": "Exactly when the constructors return the nearest number", "statement": "For every nonzero number, the result of NewFromBig of binary16, binary128 and float80x86 is the number of the format nearest to the argument (ties to even, infinity beyond the range, and canonical for float80x86) if and only if a condition on the argument alone holds. In the range of the format it is that the number of whole units in the last place (the argument truncated) is also the nearest even number of units; below the smallest number, for binary16 and binary128 that a residue of the leading bits is the right one of 0 and 1, and for float80x86 never; beyond the range, that the argument, truncated to the bits of the format, is the first power of two beyond the range times a power of 2^32 (2^32768 for the two larger formats). binary16.NewFromFloat64 returns the nearest number always in the normal range, and below it if and only if the whole units of the argument rounded to 11 bits are the nearest even number of units of the argument.", "quantifier": "for all big.Float numbers of any precision and exponent, and all float64 numbers", "why_tests_cant": "The set of arguments is infinite, and the claim is an equivalence: tests find single wrong results, but cannot say that all others are right or which are wrong.", "anchors": ["binary16/binary16.go: NewFromBig, NewFromFloat64", "binary128/binary128.go: NewFromBig", "float80x86/float80x86.go: NewFromBig"]}
{"id": "C72", "title": "Exactly which numbers IsExact32 and IsExact64 accept", "statement": "IsExact32(x) is true if and only if x is a finite float32 number such that every decimal that is read as the same float32 has at least as many significant digits as x itself; IsExact64 likewise for float64. IsExact16(x) is true if and only if x is a float64 number that FormatFloat with size 16 prints with its exact value, that is, if x is zero or is a float64 number equal to the decimal of C77 of some binary16; it is then a shortest decimal of a binary16, and it is true of every binary16 number that no shorter decimal denotes. Consequently no finite number with more than 5, 9 and 17 significant digits is accepted.", "quantifier": "every big.Float", "why_tests_cant": "An equivalence over all numbers of all precisions; the code compares two texts cut off at 101 digits, so that its being exact depends on no float64 agreeing with a decimal of 17 digits to a hundred digits without being equal to it, for all of them.", "anchors": ["float.go: IsExact16, IsExact32, IsExact64"]}
{"id": "C73", "title": "How long the texts of FormatFloat are", "statement": "With a negative precision FormatFloat returns at most 24 characters for a float64, 15 for a float32 and 11 for a binary16 in the formats e, E, g and G, and at most 327, 48 and 11 in the format f. With a precision p >= 0 it returns at most p+8 characters in the formats e and E, at most max(p,1)+7 in g and G, and in f at most p+2 more than the number of digits of the largest float of the size (309, 39, 5).", "quantifier": "every float64 value passed (NaNs, infinities and values that do not fit the size included), every legal size, every precision, both sizes of uint, optimisation on or off", "why_tests_cant": "Bounds over 2^64 inputs and all precisions; the longest text is not that of any number a test would pick, and whether 17 digits and an exponent of three can come together, or a decimal reach the 325th place, is a question about all floats.", "anchors": ["internal/strconv/ftoa.go: FormatFloat, AppendFloat (callers size buffers by these bounds: 'max(prec+4, 24)')"]}
{"id": "C74", "title": "The constructors of a package agree with each other", "statement": "NewFromFloat32(x) is NewFromFloat64(float64(x)) in binary16, binary128, float80x86 and float128ppc, NaNs included. NewFromFloat64(x) returns the same float and accuracy as NewFromBig of any big.Float with the value of x, whatever its precision and rounding mode, in binary128 and float80x86, and in float128ppc for every x but -Inf, where NewFromBig returns +Inf. In binary16 the two agree whenever x has at most 11 significant bits, and for |x| >= 2^-14 only then.", "quantifier": "every float32, every float64, every big.Float of the same value (any precision, any rounding mode)", "why_tests_cant": "Agreement of two functions on 2^32 and 2^64 inputs, the second of them at every precision and mode of the big.Float.", "anchors": ["binary16/binary16.go: NewFromFloat32, NewFromFloat64, NewFromBig", "binary128/binary128.go: NewFromFloat32, NewFromFloat64, NewFromBig", "float80x86/float80x86.go: NewFromFloat32, NewFromFloat64, NewFromBig", "float128ppc/float128ppc.go: NewFromFloat32, NewFromFloat64, NewFromBig"]}
{"id": "C75", "title": "Exactly when Float64 and Float32 of a double-double are correctly rounded", "statement": "For finite halves whose exact sum v is not zero, float128ppc's Float64 and Float32 return the float nearest to v (ties to even) if and only if not: v rounded to 106 bits is half way between two neighbouring floats of the result type and v itself lies on the side of the one with odd last bit.", "quantifier": "every pair of finite halves with a sum other than zero", "why_tests_cant": "The wrong results are about one in 2^53 of the sums; a test that does not construct them never meets one, and that there are no others is a statement about all 2^128 pairs.", "anchors": ["float128ppc/float128ppc.go: Float64, Float32, Big"]}
{"id": "C76", "title": "Switching the fast algorithms off changes no text", "statement": "FormatFloat returns the same text whether the fast algorithms are on (optimize = true, as shipped) or every conversion goes through exact decimal arithmetic, in each of the formats b, e, E, f, g and G. With any other format letter the two agree unless the precision is 0 and the number is finite and not zero (then the fast path panics, C52).", "quantifier": "every float64 value passed, every size (legal or not), every precision, both sizes of uint", "why_tests_cant": "The fast path uses 64-bit approximations of powers of ten and decides for itself when they suffice; the exact path has its own rule of when to stop. That the two never differ, ties and the exceptional floats of C51 included, is a statement about all 2^64 values and all precisions.", "anchors": ["internal/strconv/ftoa.go: optimize, genericFtoa, FormatFloat, roundShortest", "internal/strconv/extfloat.go: ShortestDecimal, FixedDecimal, adjustLastDigit"]}
{"id": "C77", "title": "Exactly which decimal a negative precision prints", "statement": "For a nonzero finite float let L be the least number of significant digits of a decimal that reads back as the float, and 10^e the place of the L-th digit of its exact value. FormatFloat with a negative precision prints the multiple of 10^e that is closest to the float among those that read back as it; if two are equally close, the one with the even last digit. The only exception: if the mantissa is odd and the midpoint to the next float has fewer than L digits, it prints the exact value cut after L digits. This determines the text. Consequently the text in format e is the one printed with precision L-1, unless the float is a power of two (with a closer neighbour below) or exceptional; at these it is exactly if the text with precision L-1 reads back as the float and, for the exceptional ones, is not above it.", "quantifier": "every finite nonzero float of sizes 16, 32 and 64, every decimal format, every negative precision, both sizes of uint, optimisation on or off", "why_tests_cant": "Ties, boundaries of the rounding interval and the exceptional floats are spread thinly over 2^64 values; a complete description of the digits has to be proved for all of them.", "anchors": ["internal/strconv/ftoa.go: FormatFloat, bigFtoa, roundShortest (loop over the digits with okdown and okup)", "internal/strconv/decimal.go: Round, RoundDown, RoundUp"]}
{"id": "C78", "title": "The size of int shows only at the extremes", "statement": "With Go's int of 32 or 64 bits, whose arithmetic wraps around, AppendFloat and FormatFloat give what they would give with unbounded integers, for every value, format, precision and size, with one exception: 'e' and 'E' with the largest int as precision, which panic (index out of range) for every nonzero finite float. FormatFloat, which allocates prec+4 bytes at first, panics before printing exactly if prec+4 is an int and more than can be allocated. NewFromFloat64 of binary16, binary128 and float80x86 does not depend on the size of int at all, and NewFromBig not on 64 bits; on 32 bits it does not up to exponents of about 2^31 minus the bias, and does above that.", "quantifier": "every float64 (and big.Float), format letter, precision of type int, bit size, and amount of memory of at least 24 bytes; int of 32 and of 64 bits", "why_tests_cant": "Overflow happens only at extreme precisions and exponents, and tests run on one machine, almost always of 64 bits. That no intermediate result overflows has to be shown for all inputs.", "anchors": ["internal/strconv/ftoa.go: FormatFloat, AppendFloat, genericFtoa, bigFtoa, roundShortest, fmtE, fmtF", "internal/strconv/decimal.go: Shift, Round, RoundUp", "internal/strconv/extfloat.go: FixedDecimal, ShortestDecimal, frexp10, Multiply, Normalize", "binary16/binary16.go: NewFromBig, NewFromFloat64", "binary128/binary128.go: NewFromBig, NewFromFloat64", "float80x86/float80x86.go: NewFromBig, NewFromFloat64"]}
{"id": "C79", "title": "32-bit and 64-bit machines print the same", "statement": "FormatFloat, AppendFloat, FormatInt, FormatUint, AppendInt, AppendUint and Itoa print the same text, or panic in the same way, on machines with a uint of 32 and of 64 bits, for all arguments that exist on both; with the wrapping int of the two machines the only exception is the largest 32-bit precision with 'e' and 'E'.", "quantifier": "every float64, format letter, precision and bit size; every 64-bit integer and base", "why_tests_cant": "The two machines shift the decimal in different steps (28 or 60 bits at a time) and convert integers in different chunks; a test run sees only one of them.", "anchors": ["internal/strconv/decimal.go: uintSize, maxShift, Shift, leftShift, rightShift", "internal/strconv/itoa.go: host32bit, formatBits", "internal/strconv/ftoa.go: FormatFloat, AppendFloat"]}
{"id": "C80", "title": "Which numbers a call changes, and who else knows the number that Big returns", "statement": "Big of bfloat, binary16, binary128, float80x86 and float128ppc returns a pointer to a big.Float that did not exist before the call and holds the number; no big.Float that existed is changed. So two calls never return the same variable, and writing to one result does not change another. NewFromBig of binary16, binary128 and float80x86 changes no existing big.Float, its argument included; NewFromFloat64, NewFromFloat32, Float64 and Float32 of the four packages that have them change none, and IsExact16, IsExact32 and IsExact64 write nothing. NewFromBig of float128ppc changes its argument and nothing else: a finite nonzero argument is left rounded to 106 bits with mode nearest-even, also if the call panics; it comes out as it went in exactly if it is zero, infinite, or has precision 106, that mode and accuracy Exact already; a second call with the same variable returns the same and changes nothing more.", "quantifier": "every memory (any number of big.Float with any contents), every pointer into it, every bit pattern, every float64 and float32", "why_tests_cant": "A test compares results; that no other variable was touched, for every state of the memory, and that no two calls ever share a variable, is a statement about all memories and all sequences of calls.", "anchors": ["bfloat/bfloat.go: Big", "binary16/binary16.go: Big, NewFromBig, NewFromFloat64, NewFromFloat32, Float64, Float32", "binary128/binary128.go: the same", "float80x86/float80x86.go: the same", "float128ppc/float128ppc.go: the same", "float.go: IsExact16, IsExact32, IsExact64"]}
{"id": "C81", "title": "AppendFloat, AppendInt and AppendUint write only behind the bytes of the slice given, and move to a new array exactly if the text does not fit", "statement": "AppendFloat(dst, …), AppendInt(dst, …) and AppendUint(dst, …) return a slice with the bytes of dst followed by the text of FormatFloat, FormatInt or FormatUint. Only bytes in the free part of dst (behind its bytes, within its capacity) can change: every other slice, dst itself included, keeps its bytes. If the text fits in the free part, the result is dst made longer in the same array, nothing is allocated and the free part behind the text is untouched; otherwise the result lies in a new array shared with no other slice. A call that panics has changed nothing. So appending to a slice without free part changes nothing that exists; two appends to the same dst that both fit share the array and the second overwrites the first; if the first did not fit, its result is safe. AppendInt and AppendUint write nothing into dst if the text does not fit, whereas AppendFloat may leave the beginning of the text in the free part of dst. 24 free bytes (15, 11 for sizes 32 and 16) are enough for every shortest text in e, E, g, G; 20 for every integer in base 10 and 65 in any base. FormatFloat changes no existing array and needs a second array exactly if the text is longer than max(prec+4, 24), which never happens for shortest texts in e, E, g, G or up to 16 decimals.", "quantifier": "all float64 values, formats, precisions, sizes, integers and bases; all slices and memories, with any sharing; all ways in which the runtime sizes new arrays; both sizes of uint", "why_tests_cant": "tests of AppendFloat check the bytes returned for one or two dst slices; what happens to bytes outside the result, to other slices that share the array, and on the boundary between in-place and new array for every text length is not visible in them", "anchors": ["internal/strconv/ftoa.go:52-60", "internal/strconv/ftoa.go:62-237", "internal/strconv/ftoa.go:344-452", "internal/strconv/itoa.go:40-56", "internal/strconv/itoa.go:89-202"]}
{"id": "C82", "title": "What the size of int does to binary128: on 32-bit machines every number is read as a subnormal", "statement": "With a 64-bit int, Big, Float64, Float32 and NewFromFloat32 of binary128 are as C14, C16 and C17 say. With a 32-bit int, Big takes every encoding, infinities and NaNs included, for a subnormal number: the fraction bits times 2^-16494, with nan false; it is right exactly for zeros and subnormals. Float64 and Float32 return a zero of the sign of f for every f, with accuracy Exact if the fraction bits are zero and otherwise Below, or Above for negative f. NewFromBig(f.Big()) is f with its exponent field cleared. NewFromFloat32 makes the same number as on 64 bits, but its accuracy is Exact only for zeros, infinities and powers of two.", "quantifier": "every binary128 value; every float32, including all NaNs; int of 32 and of 64 bits", "why_tests_cant": "the tests run on one machine, in general a 64-bit one, where none of this shows", "anchors": ["binary128/binary128.go:58-64", "binary128/binary128.go:198-280", "binary128/binary128.go:288-292"]}
{"id": "C83", "title": "Calls from several goroutines: no data race, except through float128ppc.NewFromBig", "statement": "Goroutines that call any of the functions with *big.Float in their arguments or results, and do not call float128ppc.NewFromBig, may be given the same variables: there is no data race, the variables keep their values, and each call returns what it returns for these values. There is a data race if and only if one goroutine calls float128ppc.NewFromBig with a finite non-zero number (which that function rounds in place) and another goroutine gives the same variable to any call: such a race can not be avoided by scheduling. Without a data race every goroutine returns what it returns alone, and ends after a number of its own steps that does not depend on the others.", "quantifier": "every number of goroutines, every list of calls of each, every memory, every interleaving of their steps", "why_tests_cant": "the race detector sees only the interleavings that happen, and the tests start no goroutines", "anchors": ["float128ppc/float128ppc.go:82-121", "binary16/binary16.go:87-161", "binary128/binary128.go:88-185", "float80x86/float80x86.go:97-182", "float.go:14-48"]}
{"id": "C84", "title": "binary128: the texts of 35 digits in the generated tests", "statement": "For a number of binary128, Big followed by Text('g', 35) prints the number rounded to 35 significant digits, half to even; reading the text with 113 bits of precision yields a number of the same sign that differs by less than a part in 2^112, and the same number if it has no more than 35 digits. The generated test that compares such texts passes for every row the generator can produce whose number is subnormal, or has no more than 35 digits, or whose last 60 bits are not 0, 1 or 2^60-1. Conversely, a row that passes has a text that agrees with the number's, and its float64 and accuracies are true of a number within a part in 2^112 of it.", "quantifier": "every number of binary128; every list of exponents and mantissas", "why_tests_cant": "the tests are generated for a few of the 2^128 encodings; whether a test passes for those not drawn can not be seen from it", "anchors": ["binary128/extra_test.tmpl:19-80", "binary128/gen.go:93-200"]}
{"id": "C85", "title": "binary128: the order of the generated rows", "statement": "The order in which the generator lists the mantissas is determined by the mantissas drawn, whatever algorithm sort.Slice uses, if no two of them cross (the first word of one is smaller, the second word of the other); if two of them cross, each is less than the other, and no arrangement is sorted.", "quantifier": "every list of mantissas", "why_tests_cant": "one version of the Go library yields one order; the file is not compared with anything", "anchors": ["binary128/gen.go:62-67"]}
{"id": "C86", "title": "The generated source lines are read as the rows that were computed", "statement": "Each line that binary16/gen.go writes is a row {bits: ..., want: ...} that Go reads in one way only: the code, and a float64 expression whose value is exactly the number of that code (constants are rounded to the nearest float64 and never yield -0, so -0 is written as a call); the lines list every code of a number exactly once. Each line that binary128/gen.go writes, whatever exponents and mantissas are drawn, is likewise read in one way only as the words of the code, a quoted text that denotes the number rounded to 35 digits, and the float64 and the accuracy that Float64 yields; the lines come in the order of the loops, and no line contains a line break.", "quantifier": "every row of the binary16 tables; every list of exponents and mantissas for binary128", "why_tests_cant": "the tests are these lines; if a line were read as another row, the tests would check something else", "anchors": ["binary16/gen.go:49-118", "binary128/gen.go:93-192"]}
{"id": "C87", "title": "Rounding an extended float to a float format", "statement": "Converting an extended float (64-bit mantissa, binary exponent) that is not zero to the bits of a float16, float32 or float64 yields the nearest float of the format, and the one of greater magnitude in case of a tie; overflow is reported exactly if the number is at or beyond the overflow threshold of IEEE 754, and then the result is the infinity with the sign. The result agrees with the default rounding of IEEE 754 (ties to even) unless the number is half way between two neighbours and the greater of them is odd. A zero mantissa gives a zero with the sign and no overflow, unless the exponent is at the overflow threshold, which gives an infinity.", "quantifier": "every extended float with exponent at least -2^59, all three formats", "why_tests_cant": "2^64 mantissas times the exponents; ties, the carry into the next binade, subnormal results and the overflow threshold are single points of that space", "anchors": ["internal/strconv/extfloat.go:129-174"]}
{"id": "C88", "title": "The fast algorithm for a fixed number of digits gives up only next to a tie", "statement": "For 1 to 15 digits and every extended float that is not zero, the fast algorithm for a fixed number of digits never panics, and the digits it returns are the number rounded to that many significant digits, without leading or trailing zeros. It gives up (returns false) only if the number is within a relative distance of 2^-60 of the middle between two neighbouring decimals of that many digits, and it always gives up exactly on such a middle.", "quantifier": "every extended float with nonzero mantissa and exponent from -1086 to 1049, 1 to 15 digits", "why_tests_cant": "2^64 mantissas times the exponents; the numbers for which the algorithm gives up are a tiny part that random tests do not hit", "anchors": ["internal/strconv/extfloat.go:356-466", "internal/strconv/extfloat.go:469-507"]}
{"id": "C89", "title": "The text of FormatFloat is completely determined", "statement": "FormatFloat and AppendFloat return a text for a finite float exactly if the text denotes the number to be shown and has the layout of the format. The number to be shown is the shortest decimal that is read back (negative precision), the nearest multiple of 10^-prec (format f), or the number rounded half to even to prec+1 (e, E) or max(prec, 1) (g, G) significant digits. The layout fixes the form, the sign, the first digit, the number of digits after the point or the absence of trailing zeros, and the exponent of at least two digits. So no two different texts satisfy the description, and no other text is ever returned. The same holds of the mantissa and the exponent in the format b.", "quantifier": "every finite value of the sizes 16, 32 and 64, the formats b, e, E, f, g and G, every precision, either algorithm, both word sizes, every text", "why_tests_cant": "a test compares single texts; here one description is shown to be met by exactly one text for each of the 2^64 floats and every precision", "anchors": ["internal/strconv/ftoa.go:29-60", "internal/strconv/ftoa.go:62-239", "internal/strconv/ftoa.go:344-452"]}
{"id": "C90", "title": "What FormatFloat prints is read back by AssignDecimal", "statement": "Take the text that FormatFloat returns for a finite float that is not zero, with a negative precision or with at least 17, 9 or 5 significant digits for the sizes 64, 32 and 16. However the number of the text is written as an integer of 64 bits times a power of ten, AssignDecimal does not panic, and if it reports success then floatBits gives exactly the bits of the float that was printed, without overflow. With a negative precision there is always such an integer and power within the range of the tables. AssignDecimal reports failure only if the number of the text is within a relative distance of 2^-55 of the middle of two neighbouring floats.", "quantifier": "every finite nonzero float of the sizes 16, 32 and 64, the formats e, E, f, g, G, both algorithms and word sizes, every way to write the number as integer times power of ten", "why_tests_cant": "2^64 floats times the ways to split their texts; the two algorithms share no code and both work with rounded powers of ten", "anchors": ["internal/strconv/ftoa.go:52-60", "internal/strconv/extfloat.go:132-178", "internal/strconv/extfloat.go:243-315"]}
{"id": "C91", "title": "The arithmetic the conversions rest on is correctly rounded with a true accuracy", "statement": "The conversions of all packages go through big.Float: SetPrec, Set, Add, Sub, Mul, Quo, Cmp, Float32, Float64, MantExp, SetMantExp, IsInt, Uint64, Int, Parse, Text and NewFloat. The definitions that stand for these operations do what the documentation of math/big promises. A result is the exact result rounded to the precision of the receiver in its rounding mode, in each of the six modes, and the accuracy is the true sign of the error. Infinity is given only if the rounded result reaches 2^MaxExp, and zero in place of a number only below the least number that a normalised mantissa allows. Add and Sub panic exactly for the infinities that have no sum. Cmp is the order of the extended number line. Float32 and Float64 are the nearest floats. MantExp splits a number exactly, Uint64 and Int truncate, and IsInt recognises the integers. Text with format e or g gives the number rounded to the digits asked for, and Go's conversions between float32 and float64 keep the number or round it correctly.", "quantifier": "all valid big.Float variables of any precision, mode, sign and form", "why_tests_cant": "precisions and exponents of 32 bits, mantissas of any length, six rounding modes; every other claim about conversions is only as good as the definitions that stand for the library", "anchors": ["binary16/binary16.go: NewFromBig, Big", "bfloat/bfloat.go: NewFromBig, Big", "binary128/binary128.go: NewFromBig, Big, Float32, Float64", "float128ppc/float128ppc.go:104-118", "float80x86/float80x86.go: NewFromBig, Big"]}
{"id": "C92", "title": "The order of the numbers is the order of the bit patterns", "statement": "big.Float.Cmp of what Big returns for two values orders them as their bit patterns, read as a sign and a magnitude; the two zeros are equal, and the NaNs are exactly the patterns beyond the infinities. This holds for binary16, bfloat, binary128 (first word, then second word) and the canonical encodings of float80x86; canonical double-doubles are ordered by the high half and then by the low half. Adding one to the pattern of a half, a bfloat or a binary128 (with the carry from the second word to the first) with a clear sign bit gives the next number, with no number of the format between; likewise for the canonical encodings of float80x86, where the integer bit has to be restored at the end of each exponent.", "quantifier": "all pairs of bit patterns (all canonical ones of float80x86 and float128ppc)", "why_tests_cant": "pairs of 128-bit patterns; a carry between the words, a boundary between exponents or a subnormal may break the order anywhere", "anchors": ["binary16/binary16.go: Big", "bfloat/bfloat.go: Big", "binary128/binary128.go: Big", "float80x86/float80x86.go: Big", "float128ppc/float128ppc.go: Big"]}
{"id": "C93", "title": "Numbers that IsExact accepts convert without loss", "statement": "If IsExact64 accepts a number, its conversions to float64 (by big.Float), binary128, float80x86 and float128ppc all report Exact, and Float64 of each result is that same float64, reported Exact. The same holds for IsExact32 and float32. If IsExact16 accepts a number below 4110, binary16.NewFromBig is exact and Big gives the number back.", "quantifier": "all valid big.Float variables that are accepted, of any precision and mode", "why_tests_cant": "it ties a test that works on decimal texts to four binary conversions, for every number", "anchors": ["float.go: IsExact16, IsExact32, IsExact64", "binary128/binary128.go: NewFromBig, Float64, Float32", "float80x86/float80x86.go: NewFromBig, Float64, Float32", "float128ppc/float128ppc.go: NewFromBig, Float64, Float32", "binary16/binary16.go: NewFromBig, Big"]}
{"id": "C94", "title": "A second conversion changes nothing", "statement": "What NewFromBig returned for a number can be converted to big.Float with Big and given to NewFromBig again: the same bits come out, with accuracy Exact. For binary16 and binary128 this holds exactly when the first result is not a NaN. For float80x86 it holds exactly when the first result is neither a NaN nor, beyond the range of the format, a pattern with exponent field 0 and integer bit 1; in that case the same number comes back in its canonical encoding. For float128ppc a pair with the same sum comes back, and the very same pair for numbers from 2^-969 on.", "quantifier": "all finite big.Float values of every precision and rounding mode, and all four packages with NewFromBig", "why_tests_cant": "The question is about every value that a first conversion can produce; the pairs of doubles that do not come back are those where a rest below 2^-1074 was rounded to exactly half a unit, which no table of examples hits by chance.", "anchors": ["binary16/binary16.go:87", "binary128/binary128.go:88", "float80x86/float80x86.go:97", "float128ppc/float128ppc.go:82"]}
{"id": "C95", "title": "The way to float64 through a wider format", "statement": "binary128.NewFromBig(x) followed by Float64 or Float32 returns what x.Float64() or x.Float32() returns, unless the number in between lies half way between two floats, the even one of them is below it and x is above it; then the lower float is returned. The same holds for float80x86, and for float128ppc with the argument rounded to 106 bits as the number in between, where either side can be affected.", "quantifier": "all nonzero big.Float values below 2^16384 in magnitude, of every precision and rounding mode (float128ppc: from 2^-969 up to the overflow threshold, rounding to nearest even or at most 106 bits)", "why_tests_cant": "The two ways differ only for numbers within one unit of the wide format above a point half way between two doubles, which random and hand-picked numbers miss; that there is no other difference is a statement about every number.", "anchors": ["binary128/binary128.go:88", "binary128/binary128.go:214", "float80x86/float80x86.go:97", "float128ppc/float128ppc.go:82"]}
{"id": "C96", "title": "Narrowing in steps is narrowing at once", "statement": "For a big.Float x with 2^-16382 <= |x| < 2^16384, let y be the big.Float that binary128.NewFromBig(x) followed by Big returns. Then float80x86.NewFromBig(y) and float80x86.NewFromBig(x) return the same float, and so do binary16.NewFromBig(y) and binary16.NewFromBig(x). The latter also holds for y made by float80x86. Only the accuracy may differ, as it is relative to the argument.", "quantifier": "all big.Float values from 2^-16382 up to 2^16384 in magnitude, of either sign, every precision and rounding mode", "why_tests_cant": "Whether a second rounding spoils a first one depends on every bit of the argument; outside the stated range it does, and tests on a handful of numbers in range say nothing about the others.", "anchors": ["binary128/binary128.go:88", "float80x86/float80x86.go:97", "binary16/binary16.go:87"]}
{"id": "C97", "title": "How far a converted number can be from its argument", "statement": "binary16.NewFromBig of a number x with 2^-24 <= |x| < 2^16 returns a number that is not larger in magnitude, and smaller by less than |x|/2^10 or by less than 2^-24. For binary128 the range is from 2^-16494 to 2^16384 and the bounds are |x|/2^112 and 2^-16494, for float80x86 from 2^-16445 to 2^16384, |x|/2^63 and 2^-16445. binary16.NewFromFloat64 of a double from 2^-14 up to 65520 is off by at most one part in 2^11. Float64 and Float32 of binary128 and float80x86 numbers below the overflow threshold are off by at most one part in 2^53 and 2^24 (or by 2^-1075 and 2^-150). The sum of the doubles returned by float128ppc.NewFromBig is off by at most one part in 2^105, or 2^106 if the argument rounds to nearest, and Float64 of a double-double by at most one part in 2^53 and one in 2^105.", "quantifier": "all big.Float values, doubles and bit patterns in the stated ranges, of every precision, rounding mode and sign", "why_tests_cant": "An error bound is a statement about the worst of infinitely many arguments.", "anchors": ["binary16/binary16.go:87", "binary16/binary16.go:67", "binary128/binary128.go:88", "binary128/binary128.go:214", "float80x86/float80x86.go:97", "float128ppc/float128ppc.go:82"]}
{"id": "C98", "title": "A decimal text of enough digits brings the value back", "statement": "A finite value that is printed with Text('g', n) of its Big and read with SetString into a variable with the precision of the format and a rounding mode to nearest comes back as the same number, and NewFromBig of that variable returns the value bit for bit with Exact: for binary16 with any n of at least 5, binary128 with at least 36, float80x86 with at least 21 (canonical bit patterns), float128ppc with at least 33 (the pairs Big and NewFromBig carry at all), and for bfloat with at least 4 the same number is read. With one digit less this is false: there are two different values with the same text.", "quantifier": "all finite values of each format, subnormals and both zeros included, all digit counts from the stated one on, both rounding modes to nearest, any previous content of the variable", "why_tests_cant": "The two values that first collide in n digits are rare among 2^128 patterns, and whether SetString, which multiplies or divides by a power of five with only 64 extra bits, still hits the nearest number has to be decided for exponents up to 16384.", "anchors": ["binary16/binary16.go:203", "binary16/binary16.go:87", "binary128/binary128.go:227", "binary128/binary128.go:88", "binary128/gen.go:116", "binary128/binary128_test.go:12", "float80x86/float80x86.go:224", "float80x86/float80x86.go:97", "float128ppc/float128ppc.go:154", "float128ppc/float128ppc.go:82", "bfloat/bfloat.go:30"]}
{"id": "C99", "title": "Exactly which numbers a double-double holds", "statement": "What float128ppc.NewFromBig returns for a finite number has the value of that number if and only if the number is a multiple of 2^-1074 with at most 106 significant bits, whatever its precision and rounding mode; Exact is reported in any case. A number other than zero is the value of a pair that Big and NewFromBig carry if and only if it is such a multiple and its magnitude is below 2^1024 - 2^970, and there is only one such pair. From 2^q to 2^(q+1) these numbers follow each other at a distance of 2^(q-105), but of at least 2^-1074, with none between. The largest is 2^1024 - 2^970 - 2^918, the pair 0x7FEFFFFFFFFFFFFF, 0x7C8FFFFFFFFFFFFE.", "quantifier": "all finite big.Float values of every precision and mode for which NewFromBig returns; all rational numbers", "why_tests_cant": "An equivalence over all numbers. Below 2^-969 the low half is a subnormal or zero and can lose bits, so that the 106 bits of the format are not all there; which numbers are hit depends on their last bits.", "anchors": ["float128ppc/float128ppc.go:82", "float128ppc/float128ppc.go:154"]}
{"id": "C100", "title": "Comparing values with == and comparing their numbers", "statement": "Two values of binary16, bfloat or binary128 that are not NaN are equal under Go's == if and only if Cmp of what Big returns is 0 and the signs are the same; where Cmp is 0 without ==, both are zeros. The same holds for float80x86 values whose integer bit is set exactly when the exponent field is not 0, but not for all: two float80x86 values with exponent fields below 0x7FFF denote equal numbers if and only if both 64-bit words are 0, or the signs agree and the 64-bit word times two to the exponent field (0 counting as 1) is the same. So the other encodings of a number are its 64-bit word shifted right without losing a bit, with the exponent field raised by as much. An infinity is equal to itself only. Two double-doubles of the kind that survives a round trip through Big denote equal numbers if and only if both halves are equal, up to the signs of zeros; other pairs may denote the same number.", "quantifier": "all pairs of values of the five packages; for float128ppc all pairs of normalised values", "why_tests_cant": "An equivalence over all pairs of 16-bit to 128-bit patterns; float80x86 has up to 64 encodings of one number, and programs that use the values as map keys or with == depend on there being one.", "anchors": ["binary16/binary16.go:203", "bfloat/bfloat.go:30", "binary128/binary128.go:227", "float80x86/float80x86.go:224", "float128ppc/float128ppc.go:154"]}
{"id": "C101", "title": "To float32 in one step and in two", "statement": "For a finite value f of binary128, float80x86 or float128ppc, float32(f.Float64()) is f.Float32() if and only if f.Float64() is not one of these: a double that lies half way between two neighbouring float32 values (the largest one and infinity included) of which the one with the even encoding is not the one that f (the number that Big returns) is nearer to. In particular the two are equal if Float64 reports Exact, or returns infinity. The exception occurs: for the float80x86 value 1 + 2^-24 + 2^-60, Float32 returns 1 + 2^-23 and float32(Float64()) is 1.", "quantifier": "all finite values of binary128 and float80x86, all pairs of finite doubles of float128ppc; all results of the conversion float32(r) that round to nearest even", "why_tests_cant": "An equivalence over all values; the exception has a probability of about 2^-30 for random values and occurs next to every one of the midpoints of the float32 values.", "anchors": ["binary128/binary128.go:198", "binary128/binary128.go:214", "float80x86/float80x86.go:195", "float80x86/float80x86.go:211", "float128ppc/float128ppc.go:129", "float128ppc/float128ppc.go:141"]}
{"id": "C102", "title": "Nothing of as many digits is nearer than the text, so more digits never hurt", "statement": "The number that FormatFloat prints with a precision of at least zero is at least as near to the float as every other number of as many significant digits (formats e, E, g, G) or of as many decimals (format f), including numbers beyond the next power of ten. So a text with a larger precision is never further from the float than one with a smaller precision, and a text of at least 17 significant digits (9 for size 32, 5 for size 16) is never further from it than the shortest text that is read back.", "quantifier": "for all finite floats of the three sizes, all precisions and all decimal formats, with either algorithm", "why_tests_cant": "The claim compares the text with every number of as many digits and every pair of precisions, for 2^64 floats.", "anchors": ["internal/strconv/ftoa.go:52", "internal/strconv/ftoa.go:62", "internal/strconv/decimal.go:354"]}
{"id": "C103", "title": "Print, read and print again", "statement": "A float is printed by FormatFloat with a precision of at least zero, the text is read as the nearest float, and that float is printed with the same arguments. In the format f the second text is the first. In the formats e, E, g and G it is the first except exactly if the first text denotes a power of ten and the float that was read is below the power by more than half of what the last of the digits asked for counts there; the float64 above 10^23 with 16 digits and the 21st float64 above zero with 2 digits are such cases. If the second text is read and printed as well, the third text is always the second.", "quantifier": "for all finite floats of the three sizes whose text is read as a finite float, all precisions of at least zero, all decimal formats, with either algorithm in each step", "why_tests_cant": "A sample of floats does not hit the exception, which needs two neighbouring floats around a power of ten; that nothing else goes wrong is a statement on all 2^64 floats and all precisions.", "anchors": ["internal/strconv/ftoa.go:52", "internal/strconv/ftoa.go:62"]}
{"id": "C104", "title": "Adding and subtracting by way of Big, big.Float and NewFromBig is the IEEE sum, up to the overflow threshold", "statement": "For binary16, binary128 and float80x86 and any two finite values f and g: convert both with Big, add or subtract them with Add or Sub of a *big.Float that is new or has the precision of the format and rounds to nearest even, and convert the result with NewFromBig. As long as the exact sum (difference) is below the overflow threshold of the format the result is the IEEE 754 sum: the correctly rounded exact sum, subnormal sums included, with a zero sum negative only if both summands are, and the reported accuracy is Exact. From the threshold up to 2^(emax+1)(1+2^-p) (p bits of precision) the result is the infinity with the sign of the sum, and beyond that it is a NaN, where IEEE 754 wants the infinity. For float128ppc and any two pairs with finite halves the same detour gives a pair whose halves add up to the exact sum (difference) of the numbers that Big returns, rounded to 106 bits, even among the subnormal numbers; if that rounding is out of the range of float64, NewFromBig panics.", "quantifier": "all pairs of finite values of each of the four formats (unnormal float80x86 values and overlapping float128ppc halves included), both operations, both kinds of receiver", "why_tests_cant": "There are 2^256 pairs of binary128 values; rounding twice, ties, cancellation to zero and the two overflow boundaries lie at single points of that space.", "anchors": ["binary16/binary16.go:203", "binary16/binary16.go:87", "binary128/binary128.go:227", "binary128/binary128.go:88", "float80x86/float80x86.go:224", "float80x86/float80x86.go:97", "float128ppc/float128ppc.go:154", "float128ppc/float128ppc.go:82"]}
{"id": "C105", "title": "A float printed with the size of a wider type", "statement": "A nonzero float of a smaller size (16 or 32) is printed by FormatFloat with a negative precision, once with its own size and once with a larger one (32 or 64). Whatever the larger size reads as this number, the smaller size reads as this number too, so the text for the larger size also comes back in the smaller one. The text for the smaller size has no more digits. The two texts are the same exactly if the one for the smaller size is read back as the number in the larger size and, where the float is one of the exceptional ones of C51, the other text is not above the number.", "quantifier": "for all nonzero finite floats of size 16 or 32, each larger size, all decimal formats, all negative precisions, with either algorithm, on 32- and 64-bit machines", "why_tests_cant": "It compares two printings of every float of two sizes; samples do not show that no text for the larger size falls on a neighbour in the smaller one.", "anchors": ["internal/strconv/ftoa.go:52", "internal/strconv/ftoa.go:62", "internal/strconv/ftoa.go:241"]}
{"id": "C106", "title": "What sums by way of big.Float keep: a difference is zero only between equal numbers", "statement": "Two finite values of binary16, binary128 or float80x86 are added or subtracted by Big, Add or Sub of math/big, and NewFromBig. The result is a zero exactly if the exact sum is zero, so a difference is zero only if the numbers are equal. If the summands have opposite signs (for a difference, equal signs) and neither is more than twice the other, the result is exact. If the exact sum is below the overflow threshold, what the result lacks to it is itself a number of the format.", "quantifier": "for all pairs of finite values, unnormals of float80x86 included, for a new receiver or one with the precision of the format", "why_tests_cant": "2^32 pairs of halves and up to 2^256 pairs of quadruples; the first fails in any format that flushes subnormals, at few values only.", "anchors": ["binary16/binary16.go:203", "binary16/binary16.go:87", "binary128/binary128.go:227", "binary128/binary128.go:88", "float80x86/float80x86.go:224", "float80x86/float80x86.go:97"]}
{"id": "C107", "title": "The rounding error of a sum is computed by two more operations", "statement": "Two finite values f and g of binary16, binary128 or float80x86, g not larger in magnitude, are added by Big, Add of a new big.Float and NewFromBig, giving h; t is h minus f and e is g minus t, computed in the same way by Sub. If the exact sum is below the overflow threshold, t is exactly h minus f, and h plus e is exactly f plus g. If the smaller number is taken first this can fail, as it does for 11/8 and 2048 in binary16.", "quantifier": "for all pairs of finite values in this order of size, unnormals of float80x86 included", "why_tests_cant": "It chains three additions and six conversions over all pairs of values; a single wrong rounding, tie or lost subnormal breaks it.", "anchors": ["binary16/binary16.go:203", "binary16/binary16.go:87", "binary128/binary128.go:227", "binary128/binary128.go:88", "float80x86/float80x86.go:224", "float80x86/float80x86.go:97"]}
{"id": "C108", "title": "Multiplying and dividing by way of Big, big.Float and NewFromBig is the IEEE result in the normal range", "statement": "Two nonzero finite values of binary16, binary128 or float80x86 are multiplied or divided by Big, Mul or Quo of math/big with the precision of the format, and NewFromBig. If the exact result is not below the least normal number and is below the overflow threshold, what comes back is the exact result correctly rounded, to nearest, ties to even, and NewFromBig reports it as exact. A result that is a subnormal after the rounding of math/big loses its bits below the least number, so it need not be the nearest: in binary16, 3 units of 2^-24 times 1/2 comes back as 1 unit.", "quantifier": "for all pairs of nonzero finite values, unnormals of float80x86 included", "why_tests_cant": "There are 2^32 pairs of halves and up to 2^256 pairs of quadruples, and the two roundings meet at few of them.", "anchors": ["binary16/binary16.go:203", "binary16/binary16.go:87", "binary128/binary128.go:227", "binary128/binary128.go:88", "float80x86/float80x86.go:224", "float80x86/float80x86.go:97"]}
{"id": "C109", "title": "The product of two float64 values by way of float128ppc is exact", "statement": "Two nonzero finite float64 values are turned into double-doubles by NewFromFloat64, multiplied by Big and Mul of math/big with 106 bits, and turned back by NewFromBig. If the product reaches the overflow threshold of float64, NewFromBig panics. Otherwise the high part is the float64 nearest to the product, ties to even, which is the IEEE product, and the low part is exactly the error of it, so that the parts sum to the product, if and only if the product is a multiple of 2^-1074; a product not below 2^-969 always is.", "quantifier": "for all pairs of nonzero finite float64 values, subnormals included", "why_tests_cant": "There are 2^128 pairs, and a lost bit shows only in products that have more than 53 bits and lie near the bottom of the range.", "anchors": ["float128ppc/float128ppc.go:64", "float128ppc/float128ppc.go:82", "float128ppc/float128ppc.go:154"]}
{"id": "C110", "title": "The quotient of two float64 values by way of float128ppc", "statement": "Two nonzero finite float64 values are turned into double-doubles by NewFromFloat64, divided by Big and Quo of math/big with 106 bits, and turned back by NewFromBig. If the quotient reaches the overflow threshold of float64, NewFromBig panics. Otherwise the high part is the float64 nearest to the exact quotient, ties to even, which is the IEEE quotient, although it was rounded twice; subnormal quotients are included. If the quotient is not below 2^-969 the two parts sum to the quotient correctly rounded to 106 bits.", "quantifier": "for all pairs of nonzero finite float64 values, subnormals included", "why_tests_cant": "There are 2^128 pairs. Rounding to 106 bits and then to 53 goes wrong for numbers in general; that no quotient is one of them is a matter of number theory, not of samples.", "anchors": ["float128ppc/float128ppc.go:64", "float128ppc/float128ppc.go:82", "float128ppc/float128ppc.go:154"]}
{"id": "C111", "title": "Arithmetic with infinities and zeros by way of Big, big.Float and NewFromBig", "statement": "For any two values of binary16, binary128 or float80x86 that are not NaNs: what Big, an operation of math/big and NewFromBig return is what IEEE 754 prescribes for infinite and zero operands. Adding or subtracting with an infinite operand gives that infinity, exactly, or panics with ErrNaN if infinities cancel. Multiplying or dividing with a zero or infinite operand gives the zero or the infinity of the sign that is the product of the signs, exactly, or panics with ErrNaN for zero times infinity, zero by zero and infinity by infinity. For numbers that are not zero, a new big.Float as the receiver gives what one with the precision of the format does, so C108 applies to it.", "quantifier": "for all pairs of values that are not NaNs, pseudo-denormals and unnormals of float80x86 included; for every receiver, of any precision and rounding mode, as far as infinities and zeros are concerned", "why_tests_cant": "An infinity or a zero meets up to 2^80 or 2^128 values in each operation, with four sign combinations, and receivers of any precision.", "anchors": ["binary16/binary16.go:203", "binary16/binary16.go:87", "binary128/binary128.go:227", "binary128/binary128.go:88", "float80x86/float80x86.go:224", "float80x86/float80x86.go:97"]}
{"id": "C112", "title": "Computing with halves in float64", "statement": "Two finite values of binary16 are converted with Float64, added, subtracted, multiplied or divided as float64 values, and the result is converted with NewFromFloat64. Sums, differences and products of halves are exact in float64. If a sum or difference is below 2^16 in magnitude, what comes back is the IEEE result: the exact sum correctly rounded, to nearest, ties to even, subnormals included. The same holds for a product from 2^-14 up to 2^16, and for a quotient from 2^-14 up to the overflow threshold 65520, although the quotient is rounded twice. A product below 2^-14 need not come back as the nearest half: 3 units of 2^-24 times 1/2 come back as 1 unit.", "quantifier": "for all pairs of finite values", "why_tests_cant": "There are 2^32 pairs for each operation, and double rounding goes wrong for numbers in general; that no quotient of halves is one of them takes an argument about divisibility.", "anchors": ["binary16/binary16.go:67", "binary16/binary16.go:190"]}
{"id": "C113", "title": "Computing with halves in float32", "statement": "Two finite values of binary16 are converted with Float32, added, subtracted, multiplied or divided as float32 values, and the result is converted with NewFromFloat32. Products of halves are exact in float32; sums, differences and quotients may be rounded there, and are then rounded a second time. Still, if a sum or difference is below the overflow threshold 65520 in magnitude, what comes back is the exact result correctly rounded, to nearest, ties to even, subnormals included; the same holds for a product from 2^-14 up to 2^16 and for a quotient from 2^-14 up to 65520. A product below 2^-14 need not come back as the nearest half: 3 units of 2^-24 times 1/2 come back as 1 unit.", "quantifier": "for all pairs of finite values", "why_tests_cant": "There are 2^32 pairs for each operation, and rounding twice goes wrong for numbers in general; that no sum and no quotient of halves is one of them takes an argument about how near to a midpoint they can be.", "anchors": ["binary16/binary16.go:57", "binary16/binary16.go:174"]}
{"id": "C114", "title": "A product and a sum of halves in float64", "statement": "For finite values x, y and z of binary16, converted with Float64, the float64 expression x*y + z converted with NewFromFloat64 is the exact x*y + z rounded once, to nearest, ties to even, whenever its magnitude is at least 2^-14 and below the overflow threshold 65520: what a fused multiply-add of halves would return. The product is exact in float64, so it makes no difference whether the compiler fuses the two operations. With float32 in the place of float64 this fails: for 3, 683/1024 and 2^-24 the result is 2 and not 2 + 2^-9.", "quantifier": "for all triples of finite values", "why_tests_cant": "There are 2^48 triples; the failures of rounding twice lie next to midpoints, where random tests do not go.", "anchors": ["binary16/binary16.go:67", "binary16/binary16.go:190", "binary16/binary16.go:57"]}
{"id": "C115", "title": "Square roots of halves in float64", "statement": "The square root of a positive finite value of binary16, computed as NewFromFloat64(math.Sqrt(x)) with x from Float64, is the half nearest to the exact square root, subnormal arguments included: the rounding to float64 in between does no harm. There are no ties: every other half is strictly farther away from the square root.", "quantifier": "for all positive finite values", "why_tests_cant": "A test needs an oracle for the correctly rounded square root, and one through float64 has the double rounding that is in question.", "anchors": ["binary16/binary16.go:67", "binary16/binary16.go:190"]}
{"id": "C116", "title": "float64 arithmetic by way of binary128, and why float80x86 does not do for it", "statement": "Two finite float64 values are converted with binary128.NewFromFloat64, their numbers from Big are added, subtracted, multiplied or divided by math/big with 113 bits, and the result goes through NewFromBig and Float64. What comes back is the IEEE result of the operation on float64, to nearest, ties to even, for all sums and differences (with the sign of a zero sum) and for all products and quotients of nonzero values, subnormal results and overflow to infinity included, although the result was rounded to 113 bits before. For a product the accuracy reported by Float64 is true of the exact product. By way of float80x86, whose 64 bits are too few, this fails: 1 + (2^-53 + 2^-78) comes back as 1, and the nearest float64 is 1 + 2^-52.", "quantifier": "for all pairs of finite float64 values", "why_tests_cant": "There are 2^128 pairs, and rounding twice goes wrong only next to midpoints; that 113 bits are enough and 64 are not is an argument about all of them.", "anchors": ["binary128/binary128.go:68", "binary128/binary128.go:88", "binary128/binary128.go:214", "binary128/binary128.go:227", "float80x86/float80x86.go:97"]}
{"id": "C117", "title": "float32 arithmetic by way of float80x86", "statement": "Two finite float32 values are converted with float80x86.NewFromFloat32, their numbers from Big are added, subtracted, multiplied or divided by math/big with 64 bits, and the result goes through NewFromBig and Float32. What comes back is the IEEE result of the operation on float32, to nearest, ties to even, for all sums and differences (with the sign of a zero sum) and for all products and quotients of nonzero values, subnormal results and overflow to infinity included. For a product the accuracy reported by Float32 is true of the exact product. So 64 bits are enough for float32, although C116 shows that they are not for float64.", "quantifier": "for all pairs of finite float32 values", "why_tests_cant": "There are 2^64 pairs for each operation, and rounding twice goes wrong only next to midpoints.", "anchors": ["float80x86/float80x86.go:61", "float80x86/float80x86.go:97", "float80x86/float80x86.go:195", "float80x86/float80x86.go:224"]}
{"id": "C118", "title": "Square roots of halves in float32", "statement": "The square root of a positive finite value of binary16, rounded to the nearest float32 and converted with binary16.NewFromFloat32, is the half nearest to the exact square root, subnormal arguments included, and every other half is strictly farther away. So 24 bits in between are enough for square roots, although C114 shows that they are not for a product and a sum.", "quantifier": "for all positive finite values, and every float32 nearest to the square root", "why_tests_cant": "A test needs an oracle for the correctly rounded square root; 24 bits are the least number, 2*11+2, for which this holds in general, so there is no slack for a test to see.", "anchors": ["binary16/binary16.go:57", "binary16/binary16.go:174"]}
{"id": "C119", "title": "float32 arithmetic by way of binary128", "statement": "Two finite float32 values are converted with binary128.NewFromFloat32, their numbers from Big are added, subtracted, multiplied or divided by math/big with 113 bits, and the result goes through NewFromBig and Float32. What comes back is the IEEE result of the operation on float32, to nearest, ties to even, for all sums and differences (with the sign of a zero sum) and for all products and quotients of nonzero values, subnormal results and overflow to infinity included. For a product the accuracy reported by Float32 is true of the exact product. With C117, both wide formats give the same float32.", "quantifier": "for all pairs of finite float32 values", "why_tests_cant": "There are 2^64 pairs for each operation, and rounding twice goes wrong only next to midpoints.", "anchors": ["binary128/binary128.go:58", "binary128/binary128.go:88", "binary128/binary128.go:198", "binary128/binary128.go:227"]}
{"id": "C120", "title": "Summing many halves in float64", "statement": "The finite values of binary16 in a list are converted with Float64 and added one after the other to a float64 variable that starts with 0. If their magnitudes sum to less than 2^29, which is so for every list of up to 8192 values, no addition rounds: the variable holds the exact sum. NewFromFloat64 then returns the exact sum rounded once, to nearest, ties to even, if it is below 2^16 in magnitude, subnormal results included. The order of the values makes no difference: every order gives the same float64, up to the sign of a zero. Converting back after each addition is not the same: 2048 + 1 + 1 is 2050 in this way, and 2048 if each sum is converted to a half.", "quantifier": "for all lists of finite values with a sum of magnitudes below 2^29, in all orders", "why_tests_cant": "There are 65536^8192 lists and their orders, and a sum that is rounded somewhere on the way looks as good as an exact one.", "anchors": ["binary16/binary16.go:67", "binary16/binary16.go:190"]}
{"id": "C121", "title": "Which integers are kept", "statement": "An integer n, of either sign, that a big.Float of any precision and rounding mode holds, comes back unchanged from NewFromBig followed by Big, reported Exact, with a zero keeping its sign, if |n| is at most 2^11 for binary16, 2^64 for float80x86, 2^113 for binary128 and 2^106 for float128ppc. For the first three the result of Big satisfies IsInt. In particular every int64 and every uint64 survives float80x86, binary128 and float128ppc, and after float80x86 Uint64 returns the uint64 itself and Exact. The bounds are the best possible: 2^11 + 1, 2^64 + 1 and 2^113 + 1 are not numbers of their formats, and if NewFromBig of float128ppc is given 2^106 + 1, the two halves of its result do not sum to it, although it reports Exact.", "quantifier": "for all integers up to the bound in magnitude, both signs, and all big.Float variables that hold them, whatever their precision, mode and accuracy", "why_tests_cant": "There are about 2^114 integers below the largest bound; tests can try only some powers of two and their neighbours.", "anchors": ["binary16/binary16.go:87", "binary16/binary16.go:203", "float80x86/float80x86.go:97", "float80x86/float80x86.go:224", "binary128/binary128.go:88", "binary128/binary128.go:227", "float128ppc/float128ppc.go:82", "float128ppc/float128ppc.go:154"]}
{"id": "C122", "title": "Multiplying by a power of two only moves the exponent", "statement": "If a number and 2^k times it are both in the normal range of a format, NewFromBig of binary16, binary128 and float80x86 returns two values of the same sign and fraction whose exponent fields differ by k, and reports the same accuracy for both. In bits: the second pattern is the first plus k*2^10 (binary16) or k*2^112 (binary128), and for float80x86 the word of sign and exponent grows by k while the significand is the same. The same holds for NewFromFloat64 of binary16. So the relative error of a conversion, and its direction, do not depend on the scale.", "quantifier": "for all normal numbers, all integers k of either sign that stay in the range, and all big.Float variables of any precision and mode that hold the two numbers", "why_tests_cant": "The numbers that a big.Float can hold are unbounded in length, and for the wide formats k has 32765 values of either sign.", "anchors": ["binary16/binary16.go:67", "binary16/binary16.go:87", "float80x86/float80x86.go:97", "binary128/binary128.go:88"]}
{"id": "C123", "title": "FormatFloat and FormatInt print integers alike", "statement": "A float of 16, 32 or 64 bits that is an integer is printed by FormatFloat as FormatInt and FormatUint print the integer in base ten, without point, exponent or leading zeros: in the format 'f' with precision 0 always, however large the float is; in 'f' with a negative precision if it is below 2^p in magnitude, p being 11, 24 or 53; and in 'g' with a negative precision if it is also below a million. A negative zero is printed as -0, which FormatInt never prints. The bounds matter: with precision -1 the half 65504 is printed as 65500 and the float64 2^60 as 1152921504606847000, and 'g' prints a million as 1e+06.", "quantifier": "for all integers that are floats of the size (below the bound where one is stated), both signs, all negative precisions, 32-bit and 64-bit words", "why_tests_cant": "There are 2^54 integers below the bound for float64 alone, and with precision 0 the floats that are integers have up to 309 digits.", "anchors": ["internal/strconv/ftoa.go:52", "internal/strconv/itoa.go:14", "internal/strconv/itoa.go:25"]}
{"id": "C124", "title": "Length and order of the texts of FormatUint and FormatInt", "statement": "For a base from 2 to 36, the text of FormatUint has L characters exactly if the number is below base^L and L is 1 or the number is at least base^(L-1); it never has more than 64 characters, and not more than 20 in base ten or above. Of two numbers printed in the same base the smaller one has the shorter text, or a text of the same length that comes first when compared character by character. So texts that are filled up with zeros in front to a common length are sorted as the numbers are. The character k places before the end is the digit of n / base^k mod base; in base 16 it shows the bits 4k to 4k+3. The text of FormatInt is that of FormatUint, for a negative number with a minus sign in front of the text of its magnitude; it has at most 65 characters, and at most 20 in base ten or above. Of two texts of FormatInt the one with a sign belongs to the smaller number if the other one has none, and of two with a sign the longer one, or the last one of the same length, does.", "quantifier": "for all pairs of uint64, all bases from 2 to 36, all common lengths, 32-bit and 64-bit words", "why_tests_cant": "There are 35 * 2^128 pairs of numbers and bases.", "anchors": ["internal/strconv/itoa.go:14", "internal/strconv/itoa.go:89", "internal/strconv/itoa.go:25"]}
{"id": "C125", "title": "Products of narrower numbers are exact", "statement": "Convert two finite float64 values other than zero with binary128.NewFromFloat64, read both with Big, multiply them with math/big at 113 bits and round to nearest even, and convert back with NewFromBig: the binary128 number is exactly the product, and every accuracy on the way is Exact, also where the product is too large or too small for float64. The same holds of two float32 values by way of float80x86 at 64 bits, and the float80x86 number is in canonical form.", "quantifier": "for all pairs of finite nonzero float64 values, for all pairs of finite nonzero float32 values", "why_tests_cant": "There are 2^128 pairs of float64 values and 2^64 pairs of float32 values.", "anchors": ["binary128/binary128.go:68", "binary128/binary128.go:88", "binary128/binary128.go:227", "float80x86/float80x86.go:61", "float80x86/float80x86.go:97", "float80x86/float80x86.go:224"]}
{"id": "C126", "title": "A sum of two products has one rounding", "statement": "Take four finite float64 values a, b, c, d other than zero, convert them with binary128.NewFromFloat64, form ab and cd and then ab + cd and ab - cd, each step by way of Big, math/big at 113 bits with round to nearest even, and NewFromBig. The results are the exact numbers ab + cd and ab - cd correctly rounded to binary128: there is one rounding only, nothing overflows, the result is zero exactly if the exact number is zero, and otherwise it has its sign. The same holds of four float32 values by way of float80x86 at 64 bits. So the sign of a determinant of order two is always right.", "quantifier": "for all quadruples of finite nonzero float64 values, for all quadruples of finite nonzero float32 values", "why_tests_cant": "There are 2^256 quadruples of float64 values; wrong signs come from cancellation, which random values do not meet.", "anchors": ["binary128/binary128.go:68", "binary128/binary128.go:88", "binary128/binary128.go:227", "float80x86/float80x86.go:61", "float80x86/float80x86.go:97", "float80x86/float80x86.go:224"]}
