# Formal model of the asn1scc C runtime, its uPER/ACN code generation and its constraint analysis

## What is modelled

The model is a set of small, total, computable Lean 4 functions, one per C function of
`/repo/asn1crt` (and, for the compiler, one per F# function or StringTemplate macro).
Each definition carries a comment with the file and lines it models and says where it simplifies.

* **Memory.** A `BitStream` is a byte list (`buf`, the allocated object), `count`, `currentByte`,
  `currentBit`. Every access `buf[i]` goes through a checked accessor; an index outside the object
  gives the outcome `ub`. Table lookups (`masks`, `masksb`) are checked the same way.
  `buf` may be longer than `count`, so "one byte behind the end is readable" can be stated.
* **Outcomes.** `ok a`, `ub` (out-of-bounds access, signed overflow, bad shift count) and `abort`
  (a failed `assert`; the model is the build without `NDEBUG`). A C function that returns
  `flag` returns a `Bool` inside `ok`, so "returned FALSE" and "undefined" are different things.
* **Arithmetic.** `byte` is `BitVec 8`, `asn1SccUint` is `BitVec 64`; `asn1SccSint` is an `Int`,
  and every signed `+ - unary-` is range-checked (`ub` on overflow).
  Signed left shift follows GCC's documented behaviour (two's complement, no UB).
* **Doubles.** A double is its 64 bits. The few operations the code uses (`/ 2`, `* 2`, conversion of
  a `uint64` to `double`, negation, comparison, subtraction in `Asn1Real_Equal`) are defined on exact
  rationals followed by rounding to nearest, ties to even.
* **Abstract view.** A written stream is a list of bits (most significant bit first); a stream
  being read is the list of remaining bits. `Appends f a w` says: from every encoder state with
  enough room, `f` returns `a`, appends exactly the bits `w` and changes nothing else.
  `Reads f a w` says: from every decoder state whose remaining bits begin with `w`, `f` returns `a`
  and leaves exactly the rest. The specification of an encoding is a function to `List Bool` that
  does not mention the stream, the cursor or any C helper.

The configuration is word size 8 (64-bit integers), `FP_WORD_SIZE` 8 (4 in `RealFp4`), `USE_LDEXP` undefined (as in the
repository), a little endian machine, `int` of 32 and `long` of 64 bits, and the build without
`ASN1SCC_STREAMING`. The streaming build is a second model (`Model/Streaming`, `Model/StreamRead`):
the same calls as a program that can be run by either build, which is how C38 and C62 compare them.

## Layout

`Verif/Model` is the model, `Verif/Spec` the specifications the properties refer to, `Verif/Proof` the
lemmas, `Verif/Props` the properties (one theorem group per `Cnn`, non-vacuity examples and violations
beside them). A theorem whose name ends in `_partial` proves a part of a property; `Cnn_full` (a `def` of a
proposition) or the comment above it keeps the full statement in view. `Cnn_violation…` is a theorem that
gives an input of the unchanged code which contradicts the full statement.

| model file | code |
|---|---|
| `Core`, `BitStream` | `asn1crt.h` types; `asn1crt_encoding.c` stream primitives, appending, reading, peeking, aligned and unaligned octet copies |
| `Integer` | `asn1crt.c` helpers; `asn1crt_encoding.c` constrained, semi-constrained, unconstrained integers and their narrow variants |
| `Strings` | `asn1crt_encoding.c` octet and bit strings, fragmentation |
| `Float`, `Real` | `asn1crt_encoding.c` 1029–1321, `Asn1Real_Equal` |
| `Pattern`, `Search` | null terminated reads, bit patterns, `binarySearch`, `milbus`, equality helpers |
| `Oid` | `asn1crt_encoding_uper.c`, object identifier helpers of `asn1crt.c` |
| `AcnInt`, `AcnDigits`, `AcnStrings` | `asn1crt_encoding_acn.c`: integers, BCD, ASCII, IEEE 754 images, booleans, alignment, character strings, length determinants, the narrow decoders |
| `AcnPatch` | `asn1crt_encoding_acn.h` InitDet/PatchDet macros and the `acn_c.stg` templates that use them, contained types with deferred lengths |
| `Ber`, `BerReal` | `asn1crt_encoding_ber.c` |
| `Xer` | `asn1crt_encoding_xer.c`: tokens, elements, attributes, looking ahead, the encoders and decoders of values |
| `XerGen` | `StgC/xer_c.stg`, `BackendAst/DAstXer.fs`: the generated XER encoders, decoders and sizes of whole types |
| `AcnGen` | `BackendAst/Acn`, `StgC/acn_c.stg`: the generated ACN encoders and decoders of whole types with determinants, parameters, presence, selectors, alignment and the updates of determinants |
| `AcnSizes` | `AcnEncodingClasses.fs`, `AcnCreateFromAntlr.fs`, `AcnFunctionWrapper.fs`: the announced ACN sizes |
| `CVal`, `Equal`, `Valid`, `Init` | `BackendAst/DAstEqual.fs`, `equal_c.stg`, `DastValidate2.fs`, `isvalid_c.stg`, `DAstInitialize.fs`, `init_c.stg`: the C objects of generated types, `_Equal`, `_IsConstraintValid`, `_Initialize`, declared values |
| `Topo` | `FsUtils.fs` DoTopologicalSort, `DAstProgramUnit.fs`, `CheckAsn1.fs` checkForCyclicModules: the order of declarations in headers, includes, cycles |
| `AcnAccept` | `AcnEncodingClasses.fs`, `AcnCreateFromAntlr.fs`: which ACN properties of INTEGER and ENUMERATED are accepted, the numbers of ENUMERATED items |
| `AcnExpr` | `AcnExpression.fs`, `AcnGenericTypes.fs` validateAcnExpression, `CheckLongReferences.fs`: `present-when` expressions, how they are checked and printed, and what the C condition computes (C11 integer conversions, LP64) |
| `XerFile` | `asn1crt_encoding_xer.c` `LoadXmlFile` and its state machine |
| `Names` | `FE_TypeDefinition.fs` `reserveTypeDefinitionName` for C, `EnsureUniqueEnumNames.fs` `handleEnums` (policy SelectiveEnumerants), `keepDuplicates`, `ToC` |
| `Object` | the generated functions `_Encode`, `_Decode` on C objects: which numbers of `Gen`, `Constraint` and `CVal` belong to one type, how an object in memory is read by the encoder |
| `Notation` | `CheckAsn1.fs` TypeValueMatch, IsValueAllowed, CheckIfVariableViolatesTypeConstraints; `ValuesMapping.fs` mapValue; `ConstraintsMapping.fs` getAnyConstraint: values and constraints as written, how they are checked and what they become |
| `Compile` (proofs also `CompileNums`, `CompileObject`) | `AcnCreateFromAntlr.fs` mergeType without ACN: from a type as written to the type of the back end, with sizes, alphabet, C integer and the marks of components; composes `Notation`, `Valid`, `Gen`, `Object` |
| `Written` | `CreateAsn1AstFromAntlrTree.fs` CreateConstraint, `AcnCreateFromAntlr.fs` fixConstraint: what becomes of `MIN..MAX` and of included types in constraints |
| `Param` (proofs also `ParamSub`, `ParamCode`, `ParamProg`) | `RemoveParameterizedTypes.fs`: how instances of parameterized types are replaced by copies of their bodies |
| `AcnScope` (proofs also `AcnScopeRun`, `AcnScopeMore`) | `CheckLongReferences.fs`: which parameter or inserted field a path of the ACN grammar means, and what is checked of it |
| `CheckType` (proofs also `CheckTypeTy`, `CheckTypeProper`) | `CheckAsn1.fs:400-604`: which types and constraints pass the semantic check |
| `Imports` (proofs also `ImportsFacts`, `ImportsMeaning`, `ImportsUnfold`, `ImportsAccept`, `ImportsLegal`) | `CreateAsn1AstFromAntlrTree.fs:40-52, 116-127, 822-1011`, `Asn1Ast.fs:229-294`, `CheckAsn1.fs:588-693`: imports, exports and which assignment a name means |
| `TestCases` (proofs also `TestCasesAll`, `TestCasesCover`) | `DAstInitialize.fs:236-1287` (the test cases), `EncodeDecodeTestCase.fs:47-419`, `init_c.stg:27-225`, `test_cases_c.stg:72-154`: the automatic test cases of every type and the generated test function (C105) |
| `Flatten` (proofs also `Flatten2`, `Flatten3`) | `MapParamAstToNonParamAst.fs:104-240, 349-462`: COMPONENTS OF, lists of named bits, lists of strings, names of values (C106) |
| `ObjectId` | `CreateAsn1AstFromAntlrTree.fs:55-94, 186-236`, `ValuesMapping.fs:113-134`: OBJECT IDENTIFIER and RELATIVE-OID values (C107) |
| `Literal`, proof `FloatNearest` | `CreateAsn1AstFromAntlrTree.fs:143-184, 259-263`, `FsUtils.fs:285-324, 587-607`: the text of literals; rounding to the nearest double (C108) |
| `ChoiceNames`, `ChoiceAll` | `EnsureUniqueEnumNames.fs:25-76`, `CloneTree.fs:57-94`, `FsUtils.fs:483-496`: names of the enumerators of CHOICE alternatives (C109) |
| `RangeEnds` | `CreateAsn1AstFromAntlrTree.fs:272-286, 394-422`: value ranges of INTEGER (C110) |
| `Float32` | C111: REAL in a C `float`: `BitStream_DecodeReal_fp32` and the IEEE754-1985-32 functions of ACN with the conversions between `float` and `double` |
| `RealFp4` | C112: `asn1crt_encoding.c:1061-1321` compiled with `FP_WORD_SIZE` 4 |
| `FieldNames` | C113: `EnsureUniqueEnumNames.fs:93-201` and `267-274`, `CheckAsn1.fs:24-40` and `499-506`, `FsUtils.fs:751-776`, `header_c.stg:249-271`: names of struct and union members |
| `Const` | `DAstVariables.fs` printValue for C, `variables_c.stg`: the constant of a value assignment, as the object that a C compiler makes of its initialiser |
| `Streaming`, `StreamRead` | the `ASN1SCC_STREAMING` parts of `asn1crt_encoding.c` and the documented callbacks |
| `Constraint` | `CommonTypes.fs`, `Asn1AcnAst.fs`, `uPER.fs`, `DastValidate2.fs`: constraint trees, range algebra, alphabets, generated INTEGER checks |
| `Sizes`, `Types`, `Gen` | `uPER.fs`/`AcnCreateFromAntlr.fs` sizes, the type tree, `DAstUPer.fs` with `uper_c.stg`: the generated uPER encoders and decoders |

### Not modelled

The parsers, name mangling and text layout of generated code; the Ada, Scala and Python back ends; REAL in XER
(`Double2String`, `atof`); error codes of the XER runtime; time
types; in ACN: termination patterns of BIT STRING and SEQUENCE OF, `save-position`, post-encoding hooks; the order in which the front end numbers CHOICE alternatives (taken as given: C47
speaks about the order it is handed). The generated C text is modelled as the function it denotes, not as text.

## Findings in the unchanged code

Each is a theorem, named in the note of the property.

* Buffer ends: most append functions do not report a full buffer (C04), reading functions look at one byte
  behind the input (C05, C30, C61), `BitStream_AppendByteArray` of one byte (C03).
* Signed arithmetic: `-2^63` and ranges of width `2^63` or more (C07, C10–C13, C20, C21, C23, C26, C29).
* Truncation: octet strings shorter than 65536 ignore the end of the input (C16, C37).
* Strings of 65536 and more: empty string refused (C14), fixed sizes (C37, C45, C47).
* REAL: small and subnormal values (C19, C55, C57), non-canonical mantissas (C56), hostile exponents (C58),
  equality not transitive (C59).
* ACN: sixteen digit limit (C22), terminators of more than ten bytes (C23), narrow decoders truncate (C44),
  determinants compared as prefixes (C27), contained types at unaligned positions (C52, C53), defaults (C54).
* Compiler: range intersections (C33, C60), size computations (C34), ENUMERATED order and tables (C46, C47),
  unsigned comparison against negative literals (C49).
* BER: long tags, length wrap-around, negative counts (C29, C30, C51); REAL with long form lengths, decimal encodings,
  trailing contents, the negative zero (C29, C51).
* Streaming: stale bits, lost last byte, strings that cross a buffer, unaligned bytes at buffer ends, truncated
  messages read as zeros (C38, C62). The documented example writes `currentByte` bytes at the end and so
  loses a partial last byte. With no `pushDataPrm` and a full buffer the streaming octet loop never ends (not
  modelled: the model requires the callback).
* Generated XER code: unknown ENUMERATED items, too few elements of a SEQUENCE OF and an alternative of a CHOICE that is out of range are
  accepted; a failed INTEGER is masked by the check of what was there before (C69); `sizeof` of a pointer in the decoder of a string type
  (C67, C70); the announced size takes the alphabetically last item of an ENUMERATED and no white space (C68).
* Generated ACN code: the 16 bit two's complement decoder does not call the mapping function (C71); a determinant of an absent component has no value, a
  parameter with two dependents fails in an alternative that is not chosen (C72); a 32 bit little endian REAL is accepted
  from two octets, alignment to 16 bits at the end of the input fails an assertion (C77);
  an OCTET STRING or BIT STRING overflows its array when the length field can say more than its declared range, `memcpy` is called with a
  negative length, a determinant in an absent OPTIONAL component is read although it has no value (C73);
  a message with the length of an absent component, or with a length that is cut to the maximum of a character string but also describes
  something else, is accepted and cannot be encoded again (C78); the announced minimum sizes of non-empty lists and of absent components (C74).
* Generated `_Equal`: nearby real numbers are equal, an absent component differs from its DEFAULT, a CHOICE without alternative differs from itself (C79).
* Generated `_IsConstraintValid`: WITH COMPONENT(S) as the right operand of a union is skipped, single values of structured types are not
  tested, SIZE counts as satisfied in types of fixed size, also in a reference whose C type has a count (C80); negative counts,
  octets above 127, numbers that are no item, too many arcs pass, WITH COMPONENT before SIZE reads behind the array (C81).
* Generated `_Initialize`: only ends of ranges are tried, so that exceptions and open REAL ranges give invalid values; OCTET STRING takes a value
  also from an exception; BIT STRING takes the bits of one value and the length of another; OBJECT IDENTIFIER has no arcs; CHOICE
  takes an alternative that is ABSENT (C82). DEFAULT of a BIT STRING of variable size has the number of octets as its length, DEFAULT
  of a reference that fixes the size has no length, quotation marks are lost (C83). Read, not modelled: constraints that WITH COMPONENTS puts on a component whose
  type is a reference are ignored by `_Initialize`.
* Headers of files with several modules can include each other although the modules do not depend on each other in a circle (C85).
  Read, not stated: a module that is imported but missing is reported as a cycle.
* ACN properties that are accepted and do not work: `-10^(n-1)` in n ASCII characters, negative numbers in null terminated BCD (the
  encoder writes behind a buffer of the announced size), terminators that are digits or empty; two ASCII digits are rejected for
  INTEGER (0..99) (C86). ENUMERATED: two items with the same encoded number, `encode-values` with negative numbers (C87).
* `present-when` expressions: ACN constants are printed as nothing; a reference into a SEQUENCE is always rejected, and a path that is
  too long reads another component (C88). C compares and subtracts unsigned components as unsigned numbers, constants overflow,
  division by zero is not excluded, a component that is decoded later may be mentioned (C89).
* `LoadXmlFile`: text of more than 4096 characters is refused, a comment ends at the first `->` and the rest of it becomes text (a wrong
  number is read), `<!DOCTYPE>` and CDATA are taken for comments and swallow what follows (C91).
* Names: types `T` and `T-Encode` (or `T` and `T-ACN`) give equal C names; a counter overflows into a name with a minus sign (C92). Two
  modules with values of the same name make the compiler loop forever; an enumerant whose name contains the names of its module and
  type stops it with an exception; `inline`, `restrict`, names of types and names of values with hyphens are not avoided (C93).
* Values and constraints as written: a component given twice is accepted, a value of an equivalent named type is refused, an odd number of
  hexadecimal digits adds four bits to a BIT STRING (C95); DEFAULT values are compared by truncation of REAL numbers, by
  names instead of values, without the module, after padding, and parts of referenced values are not looked at; SIZE inside WITH
  COMPONENTS, absent components, alphabets of several strings and OBJECT IDENTIFIER values are refused although valid (C97).
  Read, not stated: WITH COMPONENTS without `...` is treated as with it (CreateAsn1AstFromAntlrTree.fs:365-392).
* Included types without constraints: `(1..5 | T)` becomes `(1..5)`, `(WITH COMPONENTS { a (T) PRESENT })` loses PRESENT, `(1..5 EXCEPT T)` becomes
  `(1..5)`; `(1..5, ..., MIN..MAX)` becomes `(1..5, ...)` (C99).
* A reference that fixes the size of a type of variable size (`T (SIZE(2))`): the C object has a count, which the decoder does not store, so that the
  decoded object holds what the count in memory happens to say (C94).
* Constants of value assignments: the count of a BIT STRING of variable size is the number of octets; with a reference that fixes the size of a
  type of variable size the first octet becomes the count, or the C compiler rejects the constant, or a SEQUENCE OF has no elements; quotation marks
  disappear; `{}` for a SEQUENCE of optional components and `PLUS-INFINITY` do not compile (C98).
* Parameterized types: the compiler never ends for an extensible constraint in a parameterized type (`CloneConstraint` calls itself on the same
  constraint); names in constraints of actual parameters are captured; a value that is passed on to an inner instance is not put in; a constraint
  on a dummy reference that is passed on is lost; dummy references and instances inside larger actual parameters stay (C101). Read, not stated:
  COMPONENTS OF in a parameterized type is not substituted.
* COMPONENTS OF and value notation: COMPONENTS OF a name of a SEQUENCE type is refused; the name of an ENUMERATED value is looked up in the module
  of the type, where it may mean another value; a named bit beyond the size of its type is dropped without a message; `{}` is refused for a
  BIT STRING; a value assignment named `cr`, `lf`, `ht` or `nul` is not heeded in a list of strings; names of strings in such a list and lists
  for NumericString are refused (C106). Read, not stated: a value given by named bits gets the length of the type behind a reference, so that it
  may be refused where the reference has a size constraint; with `SIZE(0)` the length is computed as 2^32.
* References to determinants: a parameter of an enclosing type captures a name of a type inside it; determinants in absent OPTIONAL components are
  accepted; values of `present-when` are compared with the range for the first alternative only; actual parameters for parameters of a named type
  are not checked; the range of a determinant in uPER is not compared with the size; names after that of a parameter are ignored (C102).
* The semantic check lets a range on a string outside FROM and a negative SIZE pass; the translation refuses them later. A reference whose
  constraints leave no item of an ENUMERATED type is accepted, though the same constraints in one place are refused (C103).
* XER: attributes written through a null pointer, `memset` behind a BIT STRING, `atoll` overflow (C64); `<` is not escaped,
  tags of 100 characters and strings longer than local arrays cannot be read, OBJECT IDENTIFIER decoding reads one component
  (C63); contents of NULL, INTEGER, BIT STRING are not checked, OCTET STRING length above capacity (C66); unchecked
  header, names of 253 characters (C65).
* Names across modules (C104): the name of a module from which there are imports captures references to a type of that
  name; B.T is refused where T means another type; a module cannot use its own types that it does not export; names
  cannot be imported from a module that imported them; types used only by values are missing from the imports.
* Automatic test cases (C105): some store what is not a value of the type, so that the generated test fails: sizes at which encodings are
  fragmented are used below the smallest size (`SIZE(60000..70000)` is tested with 16385); a reference that fixes the size leaves the count 0;
  NUL in an alphabet ends the string; single values of character strings are ignored, those of a BIT STRING are
  stored with the shortest length, and values behind EXCEPT of an OCTET STRING are used; a component whose type has no test case
  (`INTEGER (ALL EXCEPT 0)`) stays 0. `SEQUENCE { a NULL }` has no test case; `INTEGER (0..5 EXCEPT 0)` is never tested with 1; empty
  SEQUENCE OF values are never tested.

Observed while reading, not stated as theorems: the time types' `_uper_` functions are not in the runtime
and their sizes are swapped in the compiler; the fallback for ENUMERATED in uPER determinants writes the
literal value and not the index; X.691 19.5 (DEFAULT values not encoded) is not enforced by the encoder;
`Double2String` in XER does not end for infinities.
* OBJECT IDENTIFIER values: a negative number is accepted through `name(value)`, an OBJECT IDENTIFIER value in the middle of
  another one is accepted, names of X.660 after a number, INTEGER values as components and `Module.value` are refused, a
  RELATIVE-OID value named `iso` is taken for 1, a RELATIVE-OID value that contains itself makes the compiler run forever (C107).
* Literals: two quotation marks that stand for one and line breaks stay in strings; REAL values with a negative power of ten are not
  rounded correctly, some values with large or small exponents become NaN or 0 (C108).
* Names of alternatives: alternatives that differ only in capital letters are refused; an ENUMERATED item `on-PRESENT` and an
  alternative `on` get the same C name; with `-renamePolicy 2` the compiler does not end for some nested CHOICE types (C109).
* Value ranges: a `<` beside MIN or MAX is dropped; the check of the ends uses 64 bits also for 32 bit targets (C110).
* `BitStream_DecodeReal_fp32` reports success for a finite number that is too large for a `float` and stores infinity; -0 becomes +0; and
  after a failed read it converts an uninitialised `double` (C111).
* With `FP_WORD_SIZE` 4 every REAL below 2^-104 is decoded as 0 with success, from a peer that uses `double` every one below 2^-75;
  subnormal numbers are sent as other numbers (C112).
* Two components of one struct get the same C name: `int` and `a-int` inside a component `a` with `-fp AUTO`, and `exist` beside an OPTIONAL
  component. `inline` and `restrict` are not treated as keywords, and a prefix given with `-fp` can make one (C113).

## How the theorems were tested

`seeded/LOG.jsonl` has one line per wrong program: the definition that was changed, the change, the claim it breaks,
the theorems that failed and those that were tightened since they did not.

## Trusted base

Lean's kernel; the axioms below (only `propext`, `Classical.choice`, `Quot.sound` occur); the reading of
the C, F# and template code recorded in the comments of the model; the C semantics described above, in particular
GCC's shift of negative numbers, IEEE 754 arithmetic with `FLT_EVAL_METHOD` 0 and rounding to nearest, and one
NaN (payloads are not distinguished). The specifications in `Verif/Spec` have to be read by the reader: they say what
X.691, X.690 or the ACN manual demand.

`#print axioms` of the theorems in `MANIFEST.json`:

* **none**: C06_violation_attach, C30_violation_put, C65_violation_enumerated, C65_violation_reused, C88_longer_violation
* **propext**: C25_violation_truncated, C44_narrow_unsigned_partial, C63_violation_string, C63_violation_long_tag, C63_violation_object_identifier, C64_violation_attribute, C64_violation_attribute_name, C64_violation_integer, C65_violation_header, C66_violation_null, C66_violation_integer, C66_violation_empty_element, C68_violation_enumerated, C68_violation_white, C89_presence_partial, C89_wrap_violation, C89_undefined_violation, C89_late_violation, C91_doctype_violation, C95_oddDigits_violation, C95_twice_violation, C95_governor_violation, C97_names_violation, C97_alphabet_violation, C97_oid_violation, C99_union_violation, C99_extension_violation, C106_reference_violation, C106_dropped_violation, C106_noFlags_violation, C107_middle_violation, C107_capture_violation, C108_string_partial, C108_base
* **propext, Quot.sound**: C03_violation_appendByteArray, C04_octets_full_partial, C04_appendByte0_full_partial, C04_violation_write_past_end, C04_violation_assert, C04_violation_nBitZero_wraps, C05_violation_semi_overflow, C05_violation_read_past_end, C05_violation_readByteArray, C07_violation_wide_range, C08_decoded_pos_in_bounds, C10_violation_overflow, C11_violation_min, C12_number_of_bits, C12_violation_min, C13_violation_min, C16_octets_without_length, C16_violation_truncated, C17_violation_mult_capacity, C18_isValid, C20_violation_min, C21_violation_min, C22_bcd_not_canonical, C23_terminator, C23_violation_min, C23_violation_min_decode, C23_violation_malformed_aborts, C23_violation_long_terminator, C24_external_clipped, C26_violation_min, C29_violation_min, C29_violation_tag, C29_violation_real_negative_zero, C30_bytes_partial, C30_violation_get, C30_violation_integer, C30_violation_bits, C30_violation_real, C31_linearSearch, C31_getCharIndex, C32_octetString, C32_objectIdentifier, C34_violation_bits, C34_violation_min_size, C35_violation_min, C37_violation_octets, C38_source, C38_violation_stale, C38_violation_padding, C38_violation_partial_byte, C38_violation_octets, C38_violation_refused, C38_violation_zeros, C38_violation, C39_violation_max_zero, C42_narrow_unsigned, C43_violation_invalid_accepted, C43_violation_unfinished_accepted, C44_narrow_signed_partial, C44_violation, C45_violation_fixed_size, C45_violation_overflow, C45_violation_real, C46_violation_table, C48_violation_min, C49_valid_iff_partial, C50_increasing, C50_within, C51_violation_wrap, C51_violation_truncated, C51_violation_indefinite, C51_violation_bits, C51_violation_real_length, C51_violation_real_decimal, C51_violation_real_special, C52_bits_decode, C52_octets_decode_partial, C52_violation_unaligned, C52_violation_padding, C52_violation_embedded, C53_octets_partial, C53_bits_partial, C53_violation, C54_violation, C57_violation_long_exponent, C57_violation_decimal, C58_violation_negate, C58_violation_multiply, C58_violation_past_end, C59_violation, C61_violation, C62_partial, C62_source, C62_violation_unaligned, C62_violation_octets, C62_violation_out_of_bounds, C62_violation_truncated, C62_violation, C64_violation_bit_string, C65_null, C65_boolean, C65_enumerated_partial, C65_string, C65_octet_string, C65_bit_string, C66_string, C66_null_partial, C66_violation_octet_string, C66_violation_bit_string, C67_violation_string, C67_violation_less_than, C69_violation_enumerated, C69_violation_sequence_of, C69_violation_integer, C69_violation_choice, C69_violation_octets, C70_violation_bits, C70_violation_string, C70_violation_attribute, C71_violation_mapping, C72_violation_absent, C73_violation_overflow, C73_violation_overflow_bits, C73_violation_negative, C73_violation_uninitialised, C73_violation_ascii, C74_violation_min_absent, C77_violation_real32, C77_violation_align, C78_violation_absent, C79_real_violation, C79_default_violation, C79_none, C80_singleValue_violation, C80_exceptValue_violation, C80_exceptSize_violation, C81_character_violation, C81_item_violation, C81_arcs_violation, C82_realOpen_violation, C82_octetsExcept_violation, C82_bitsValue_violation, C82_strValue_violation, C82_choiceAbsent_violation, C83_fixedReference_violation, C83_quote_violation, C85_twoModules_violation, C86_width, C86_as_written, C86_ascii_violation, C86_bcd_violation, C86_terminator_violation, C86_noTerminator_violation, C87_unique, C88_text_partial, C88_accepted_partial, C88_reference, C88_constant_violation, C88_nested_violation, C89_value_partial, C89_boolean, C89_unsigned_violation, C90_written_partial, C91_safe, C91_comment_violation, C97_innerSize_violation, C97_optional_violation, C97_bitsForOctets_violation, C98_quote_violation, C98_noComponents_violation, C98_infinity_violation, C99_something_partial, C99_mark_violation, C101_extensible_violation, C102_unique_partial, C103_late_violation, C104_external_violation, C104_again_violation, C104_stray_violation, C105_items_partial, C105_booleans_partial, C105_alternatives, C105_references, C105_nul_violation, C105_strValue_violation, C105_octetsExcept_violation, C105_bitsValue_violation, C105_null_violation, C106_sequence, C106_flags_size, C106_special_violation, C106_parts_violation, C107_numbers_partial, C107_negative_violation, C107_keyword_violation, C107_values_violation, C107_loop_violation, C109_all_distinct, C109_own_names, C109_crash_partial, C110_selects_partial, C112_negate_violation, C112_multiply_violation, C112_past_end_violation
* **propext, Classical.choice, Quot.sound**: C01_append_log, C02_reads_replay, C02_chunking_independent, C03_frame, C03_appendByteArray_one_partial, C05_integer_decoders_safe_partial, C05_oid_decoders_safe, C05_reads_safe_partial, C06_encoder_deterministic, C06_old_content_irrelevant, C07_constrained_roundtrip_partial, C07_constrained_truncated_partial, C08_decoded_in_bounds, C08_pattern_above_range_rejected, C09_pos_constrained_roundtrip, C09_pos_constrained_truncated, C10_semi_roundtrip_partial, C10_semi_pos_roundtrip, C11_unconstrained_roundtrip_partial, C11_decode_min, C12_length_uint, C12_length_sint_partial, C13_int2uint_partial, C13_roundtrip_partial, C13_uint2int_reading, C14_octet_encoding, C14_octet_roundtrip_partial, C14_violation_empty_fragmented, C15_bit_encoding, C15_bit_roundtrip_partial, C15_violation_empty_fragmented, C16_truncated_rejected_partial, C17_acn_string_capacity, C17_mult_capacity_partial, C17_octet_capacity, C17_bit_capacity, C18_oid_encoding, C18_oid_roundtrip, C18_reloid_encoding, C18_reloid_roundtrip, C19_partial, C19_special, C19_violation_small, C19_violation_negative_zero, C20_uint_bits, C20_uint_big_endian, C20_uint_8, C20_uint_little_endian, C20_sint_bits_partial, C20_sint_8, C20_sint_big_endian_partial, C20_sint_little_endian_partial, C20_decode_min, C20_decoders_safe, C21_uint, C21_sint_partial, C21_decoders_safe, C22_bcd_const_size, C22_bcd_length_embedded_partial, C22_violation_length_embedded, C22_bcd_null_terminated, C22_decoders_safe, C23_uint_const_size, C23_sint_const_size_partial, C23_uint_length_embedded, C23_sint_length_embedded_partial, C23_uint_null_terminated_partial, C23_sint_null_terminated_partial, C23_uint_null_terminated_safe, C24_ascii_fix_size, C24_ascii_null_terminated, C24_ascii_null_terminated_mult, C24_ascii_external, C24_ascii_internal, C24_index_fix_size, C24_index_external, C24_index_internal, C24_ia5, C24_zero_character, C25_align, C26_partial, C26_ia5, C26_several_partial, C27_ia5_partial, C27_violation_long, C27_violation_prefix, C28_roundtrip, C28_shortest, C28_says, C29_integer_partial, C29_boolean_partial, C29_null_partial, C29_octets_partial, C29_ia5_partial, C29_bits_partial, C29_indefinite, C29_other_tag_partial, C29_next_tag_partial, C29_real_partial, C29_other_tag_real_partial, C30_encoders_partial, C30_decoders_partial, C30_encoder_real_partial, C30_decoder_real_partial, C31_binarySearch, C31_binarySearch_any_table, C32_bitString, C33_integer_partial, C33_size_partial, C33_string_size_partial, C33_violation, C34_max_partial, C34_min_partial, C34_buffer_partial, C34_violation_min_int, C34_violation_serial, C35_encoding, C35_roundtrip_partial, C36_unambiguous, C36_prefix_free, C36_concatenation, C37_truncated_refused_partial, C38_partial, C38_written_partial, C38_integers_partial, C39_checkBitPatternPresent, C39_readBits_found_partial, C39_readBits_absent, C40_bool_two_patterns, C40_bool_other_rejected, C40_bool_one_pattern, C40_bool_safe, C40_ieee754, C41_milbus, C42_narrow_signed, C43_oid_accepted_partial, C45_decoder_safe_partial, C46_enumerated_partial, C47_conforms_partial, C47_violation_enum, C47_violation_real, C47_violation_fragments, C48_accepted_valid_partial, C48_reencode_partial, C49_type_holds, C49_violation, C50_alphabet, C51_integer_partial, C51_boolean_partial, C51_null_partial, C51_octets_partial, C52_bits_encode, C52_octets_encode, C52_embedded_bits_partial, C52_embedded_octets_partial, C54_partial, C55_partial, C55_violation_subnormal, C56_partial, C56_violation, C57_partial, C57_exact_partial, C57_too_large, C57_short_exponent, C57_violation_small, C57_violation_mantissa, C58_partial, C59_reflexive, C59_nan, C59_symmetric, C60_partial, C60_union_partial, C60_violation_max, C60_violation_except, C61_tag_partial, C61_zeros_partial, C62_integers_partial, C63_null_partial, C63_integer_partial, C63_pos_integer_partial, C63_boolean_partial, C63_enumerated_partial, C63_string_partial, C63_octet_string_partial, C63_bit_string_partial, C63_violation_octet_string, C64_null, C64_pos_integer, C64_integer_partial, C64_boolean_partial, C64_enumerated_partial, C64_string, C64_octet_string, C64_bit_string_partial, C64_element_start_partial, C64_element_end, C64_look_ahead, C65_integer, C65_pos_integer, C65_object_identifier, C66_pos_integer_partial, C67_text_partial, C67_round_trip_partial, C68_size_suffices_partial, C69_checked_partial, C70_decoder_safe_partial, C71_encoding_partial, C71_roundtrip_partial, C72_no_contradiction, C72_violation_parameter, C73_decoder_safe_partial, C73_violation_string, C74_max_partial, C74_min_partial, C74_buffer_partial, C74_violation_min_list, C75_accepted_valid_partial, C76_unambiguous_partial, C76_prefix_free_partial, C77_truncated_refused_partial, C78_relay_partial, C78_violation_clipped, C79_equal_partial, C79_valuesOnly, C79_withReal, C79_same, C80_valid_partial, C80_union_violation, C80_unionAbsent_violation, C80_fixedReference_violation, C81_anyObject_partial, C81_negative_violation, C81_componentFirst_violation, C82_initialize_partial, C82_valid_partial, C82_equal_partial, C82_allExcept_violation, C82_except_violation, C82_alphabet_violation, C82_oid_violation, C83_declared_partial, C83_bits_violation, C84_order, C84_cyclic, C84_header, C84_header_cyclic, C84_modules, C85_includes_partial, C86_accepted_partial, C86_rejected_partial, C86_rejected_violation, C87_numbers, C87_distinct, C87_accepted_partial, C87_twice_violation, C87_negative_violation, C89_small_partial, C90_layout_partial, C91_load_partial, C91_written_partial, C91_long_violation, C92_distinct, C92_ends_partial, C92_identifier_partial, C92_own_names, C92_overflow_violation, C92_function_violation, C92_functions_partial, C93_distinct, C93_ends_partial, C93_own_names, C93_hang_violation, C93_crash_partial, C93_crash_violation, C93_names_violation, C94_roundtrip_partial, C94_refused_partial, C94_sameBits_partial, C94_injective_partial, C94_buffer_partial, C94_initialized_partial, C94_fixedReference_violation, C95_denotes_partial, C95_unique, C95_accepted_partial, C95_hexBits_partial, C95_hexOctets, C95_integerAsReal, C96_constraint_partial, C97_accepted_partial, C97_decided_partial, C97_hexSize_partial, C97_real_violation, C97_module_violation, C97_padding_violation, C97_inside_violation, C97_present_violation, C98_constant_partial, C98_valid_partial, C98_equal_partial, C98_encoded_partial, C98_sameAsDeclared_partial, C98_bits_violation, C98_fixedReference_violation, C98_fixedReference2_violation, C98_fixedElements_violation, C99_kept_partial, C99_translated_partial, C99_dropped_partial, C99_except_violation, C100_meaning_partial, C100_check_partial, C100_roundtrip_partial, C100_object_partial, C100_refused_partial, C100_injective_partial, C100_buffer_partial, C100_default_partial, C101_instance_partial, C101_gone_partial, C101_capture_violation, C101_passedOn_violation, C101_dropped_violation, C101_deep_violation, C102_resolved_partial, C102_only_partial, C102_known_partial, C102_exclusive_partial, C102_inside_partial, C102_capture_violation, C102_optional_violation, C102_value_violation, C102_argument_violation, C102_uper_violation, C102_tail_violation, C103_constraint_partial, C103_meaning_partial, C103_sound_partial, C103_accepts_partial, C103_decides_partial, C103_check_partial, C103_roundtrip_partial, C103_empty_violation, C104_meaning_partial, C104_unique_partial, C104_sound_partial, C104_values_partial, C104_ends, C104_unfolds_partial, C104_imports_partial, C104_accepts_partial, C104_decides_partial, C104_private_violation, C104_capture_violation, C104_valueImport_violation, C105_valid_partial, C105_passes_partial, C105_bounds_partial, C105_sizes_partial, C105_elements_partial, C105_components_partial, C105_fragment_violation, C105_fixedReference_violation, C105_noCase_violation, C105_except_violation, C106_components_partial, C106_values_partial, C106_default_partial, C106_accepts_partial, C106_capture_violation, C107_accepts_partial, C107_unique, C107_stable, C108_bits, C108_hex, C108_octets, C108_int, C108_quote_violation, C108_lines_violation, C108_real2_partial, C108_real10_partial, C108_tenth_violation, C108_tiny_violation, C108_zero_violation, C109_all_violation, C109_distinct, C109_ends, C109_enumerants_partial, C109_enumerant_violation, C109_case_violation, C110_accepts, C110_open_violation, C110_word_violation, C111_value, C111_uper_partial, C111_acn, C111_nearest_partial, C111_acn_nearest_partial, C111_zero_violation, C111_large_violation, C112_roundtrip_partial, C112_special, C112_value_partial, C112_small_violation, C112_safe_partial, C112_peer_partial, C112_read_partial, C112_nearest_partial, C112_short_exponent, C112_zero_violation, C112_subnormal_violation, C112_peer_violation, C113_keywords_partial, C113_distinct_partial, C113_nested_partial, C113_default_partial, C113_prefix, C113_members_partial, C113_duplicates, C113_struct_partial, C113_exist_violation, C113_nested_violation, C113_inline_violation, C113_prefix_violation

## Properties

| id | title | status | what is proved, what is missing |
|---|---|---|---|
| C01 | Append calls build an exact bit log | proved | Full. |
| C02 | Read calls replay the bit log | proved | Full. |
| C03 | Appending never disturbs what was already written and never leaves the buffer | partial | Holds for every append except BitStream_AppendByteArray of one byte that ends exactly at the buffer end (witness). |
| C04 | A full buffer is reported, not overrun | partial | Proved for the octet-string append and BitStream_AppendByte0; the other append functions do not report a full buffer (witnesses). |
| C05 | Decoding any byte string stays inside the buffer | partial | Every decoder is safe when one byte behind the input is readable; without it BitStream_ReadBit and others read one byte too far (witnesses). Signed semi-constrained decoding overflows on hostile input (witness). |
| C06 | An encoding depends only on the value | proved | Full. |
| C07 | Constrained integers round-trip in the minimum number of bits | partial | All ranges of width below 2^63; wider ranges overflow a signed subtraction (witness). |
| C08 | Constrained decoding never yields a value outside its bounds | proved | Full. |
| C09 | Non-negative constrained integers round-trip over the whole unsigned range | proved | Full. |
| C10 | Semi-constrained integers round-trip in minimal octets | partial | Unsigned: complete. Signed: v - min below 2^63; beyond it the code overflows (witness). |
| C11 | Unconstrained integers round-trip in minimal two's complement | partial | All values but INT64_MIN, where the encoder overflows (witness). |
| C12 | Bit and octet length functions are exact minima | partial | Signed length: all values but INT64_MIN (witness). |
| C13 | Signed/unsigned conversion helpers are inverse | partial | All values but INT64_MIN (witness). |
| C14 | Octet strings round-trip at every length | partial | All lengths and bounds except the empty string under a bound of 65536 or more, which the decoder rejects (witness). |
| C15 | Bit strings round-trip at every length | partial | As C14. |
| C16 | Truncated octet strings are rejected | partial | Fragmented encodings only; below 65536 the decoder ignores the end of input (witness). |
| C17 | String decoders never write past the destination capacity | partial | Octet, bit and ACN strings; the decoder for several terminator bytes stores one byte too far (C17_violation_mult_capacity), and is safe with one byte more. |
| C18 | Object identifiers round-trip | proved | Full. |
| C19 | REAL values round-trip | partial | All normal doubles of magnitude at least 2^-971 and all special values; smaller ones decode to zero (C19_violation_small), -0.0 loses its sign (C19_violation_negative_zero). |
| C20 | ACN fixed-size integers round-trip | partial | All unsigned sizes and 8-bit signed proved in full; for the wider two's complement encoders -2^63 is missing because the encoder negates it (C20_violation_min); the decoders accept it (C20_decode_min). |
| C21 | ACN length-embedded integers round-trip | partial | Unsigned proved in full; signed for every value but -2^63, where the encoder overflows (C21_violation_min). |
| C22 | ACN BCD integers round-trip | partial | Constant size and null terminated in full; length embedded for values of at most 16 digits, the decoder rejects every larger one (C22_violation_length_embedded). |
| C23 | ACN ASCII integers round-trip | partial | All unsigned values with constant size and embedded length; signed without -2^63 (C23_violation_min); null terminated for terminators of 1 to 10 bytes that do not begin inside the text (C23_violation_long_terminator); malformed text aborts (C23_violation_malformed_aborts). |
| C24 | ACN character strings round-trip | proved | Every admissible string: no zero character for the variable sizes (the encoders stop there, C24_zero_character), the terminator (1 to 10 bytes) does not begin inside the string, characters belong to the alphabet. |
| C25 | Alignment pads with zeros to the next boundary, minimally | proved | Byte, word and double word alignment, all positions. C25_violation_truncated: the decoder aborts on a truncated message (a C05 violation). |
| C26 | Deferred determinants are patched in place and only there | partial | All determinant kinds, widths and values that fit except -2^63 in eight octets (C26_violation_min); any number of determinants patched in any order; IA5String determinants. |
| C27 | A determinant used twice must agree | partial | Numbers and BOOLEAN: any number of patches. IA5String up to 255 characters; longer equal strings are rejected (C27_violation_long), strings too long for the determinant are compared in part (C27_violation_prefix). |
| C28 | BER length octets round-trip | proved | All lengths an int can hold; the octets are shown to be the shortest definite form. |
| C29 | BER tag-length-value primitives round-trip | partial | INTEGER without -2^63 (C29_violation_min), BOOLEAN, NULL, OCTET STRING, IA5String, BIT STRING, indefinite length marks; tags of at most four octets, longer ones are an undefined shift in the decoder (C29_violation_tag). REAL for all doubles the runtime holds (C29_real_partial); the negative zero loses its sign (C29_violation_real_negative_zero). |
| C30 | BER byte access never leaves the buffer | partial | The stream behaves as if it had one octet more than it has (C30_violation_put, C30_violation_get); proved for objects with this octet. INTEGER and BIT STRING decoders have undefined behaviour for some lengths (C30_violation_integer, C30_violation_bits); so has the REAL decoder for four octets of exponent (C30_violation_real). |
| C31 | binarySearch finds exactly the members of a sorted table | proved | Full. |
| C32 | Equality functions decide value equality | proved | Full. |
| C33 | The effective range contains every value the constraints allow | partial | INTEGER and SIZE constraints of every shape without an intersection with a range MIN..v, for which the computed range is wrong (C33_violation). |
| C34 | Encodings never exceed the announced maximum size | partial | All types of the model; missing BIT STRING with a size narrowed by WITH COMPONENTS (C34_violation_bits), extensible INTEGER with further constraints (C34_violation_serial); the minimum also misses sizes from 65536 on (C34_violation_min_size) and extensible INTEGER with a bounded root (C34_violation_min_int). |
| C35 | Generated uPER codecs round-trip for every type | partial | All types of unbounded nesting, REAL included; missing -2^63 in an INTEGER without lower bound (C35_violation_min), the ranges and values for which C09-C11 fail, and the doubles for which C19 fails. Time types and CONTAINING are not modelled. |
| C36 | uPER encodings are self-delimiting and unambiguous | proved | All types of the model and all values for which C35 holds; the theorems speak about the bits the encoder is proved to write (C35_encoding). |
| C37 | A truncated message is never accepted | partial | All types without an OCTET STRING of variable size below 65536 that may be empty (C37_violation_octets) and without character strings or SEQUENCE OF of a fixed size of 65536 or more. |
| C38 | Streaming mode writes the same bytes | partial | Every program over the append primitives and every buffer size, if pushData clears the buffer, rows of zeros end within the next buffer and octet strings fit into the current buffer; integer encoders for buffers of 8 bytes or more. False without these: C38_violation_stale, _padding, _partial_byte, _octets, _refused, _zeros. |
| C39 | Bit pattern checks match exactly the pattern | partial | All patterns, positions and contents; ReadBits_nullterminated with a maximum of 0 never looks for the terminator (witness). |
| C40 | ACN booleans and IEEE754 reals round-trip | proved | Booleans with one or two patterns (hypothesis: the patterns differ in the n bits), IEEE754 images of any size on a little endian machine. The float/double conversion of the 32-bit encoder is not modelled. |
| C41 | MIL-STD-1553 length mapping is a bijection | proved | Full. |
| C42 | Narrow decoders agree with the wide decoder | proved | Full. |
| C43 | Accepted object identifiers are valid | partial | Component count and second component only; the first component may exceed 2 and the last subidentifier may be unfinished (witnesses). |
| C44 | Narrow ACN decoders agree with the wide decoder and accept only what fits | partial | Agreement proved; values that do not fit are truncated and accepted (C44_violation). |
| C45 | Generated decoders are safe on every input | partial | All types except INTEGER with a negative lower bound and no upper bound (C45_violation_overflow), character strings or SEQUENCE OF with a fixed size of 65536 or more (C45_violation_fixed_size), and REAL (C45_violation_real; C58 has the safe inputs). |
| C46 | ENUMERATED decoders return declared items only | partial | Both modes; a table emitted for a constrained type assignment is read out of bounds (C46_violation_table). |
| C47 | Generated uPER encoders conform to X.691 | partial | All types except ENUMERATED declared out of order in switch mode (C47_violation_enum), fixed sizes that are multiples of 16384 from 65536 on (C47_violation_fragments), and REAL (C47_violation_real). The order of CHOICE alternatives is taken as given. |
| C48 | Accepted messages hold valid values that can be sent on | partial | Types as in C45 without -2^63 in an INTEGER without lower bound (C48_violation_min). |
| C49 | The generated validity check of an INTEGER decides its constraints | partial | All constraint expressions whose literals are written with the signedness of the C type; a negative literal in an unsigned type accepts wrong values (C49_violation). |
| C50 | The effective alphabet of a string type is right | proved | All constraint expressions. |
| C51 | Accepted BER messages mean what the decoder reports | partial | INTEGER, BOOLEAN, NULL, OCTET STRING below the maximum; lengths wrap around at 2^32 (C51_violation_wrap), longer strings are truncated (C51_violation_truncated), indefinite lengths and unused bits give negative counts (C51_violation_indefinite, C51_violation_bits); REAL: long form lengths, decimal encodings and trailing contents octets are misread (C51_violation_real_*). |
| C52 | Contained types with deferred lengths round-trip | partial | BIT STRING with a determinant: complete. OCTET STRING only at octet boundaries and whole octets (C52_violation_unaligned, C52_violation_padding). Embedded lengths unless the field crosses an octet boundary (C52_violation_embedded). |
| C53 | Decoding a contained type never reads outside the message | partial | Holds when the announced contents lie in the message; the code does not check this (C53_violation). |
| C54 | Determinants that nothing refers to get a decodable default | partial | uPER determinants whose lower bound is not positive; fails otherwise (C54_violation). |
| C55 | The contents octets of a REAL denote the value | partial | All normal doubles; subnormal ones are encoded as another value (C55_violation_subnormal). |
| C56 | REAL encodings are canonical | partial | Base 2, no scaling, shortest octets for the mantissa and exponent that are written; the mantissa is not made odd (C56_violation). |
| C57 | REAL encodings of other implementations decode to their value | partial | Base 2, 8 and 16, every scale factor, mantissas of up to 64 bits: the nearest double with ties to even, exactly the value where a double has it, an infinity from the IEEE 754 limit on; missing: powers of two below -1023 (C57_violation_small), mantissas above 64 bits (C57_violation_mantissa), the long form of the exponent length (C57_violation_long_exponent), decimal encodings (C57_violation_decimal). |
| C58 | The REAL decoder is safe on hostile input | partial | Every input unless the two low bits of the first contents octet are both set, with one readable byte behind the buffer; undefined arithmetic or a read behind the buffer otherwise (C58_violation_negate, C58_violation_multiply, C58_violation_past_end). |
| C59 | Equality of REAL values is an equivalence relation | partial | Reflexive except for NaN, symmetric; not transitive (C59_violation). |
| C60 | The effective range is no wider than the constraints demand | partial | Ranges of one shape (two bounds, v..MAX, or MIN..v), intersections, series, and unions at the top; a range v..MAX intersected with a range inside of it gives a range that is too wide (C60_violation_max), EXCEPT is not taken into account (C60_violation_except). |
| C61 | Looking ahead in a BER stream answers correctly and consumes nothing | partial | Tags of at most four octets; an octet behind the stream has to be readable (C61_violation). |
| C62 | Streaming mode reads the same values | partial | Every decoder whose calls stay inside the message and inside the current buffer where the source needs it (ROp.LegalAt), with the integer decoders at byte boundaries for every buffer size. False otherwise: C62_violation_unaligned, _octets, _out_of_bounds, _truncated. |
| C63 | XER values round-trip | partial | Tags of 1 to 99 name characters; strings without '<' and 0, at most 511 octets, at most 2047 bits (C63_violation_string, _long_tag, _octet_string); OBJECT IDENTIFIER does not round-trip (C63_violation_object_identifier); REAL is not modelled. |
| C64 | XER decoders are safe on hostile input | partial | NULL, unsigned INTEGER, strings, OCTET STRING and looking ahead: every input. Signed INTEGER without 19 digits in a row, BOOLEAN, ENUMERATED and element starts without a double quote, BIT STRING with an array of 256 octets or more; false otherwise (C64_violation_*). |
| C65 | XER encoders write the element and stay inside the buffer | partial | All encoders on a stream that is 0 behind the position; names of at most 252 characters (C65_violation_enumerated); the header is not checked (C65_violation_header); a stream that was not cleared (C65_violation_reused). |
| C66 | XER decoders accept only what denotes the value they return | partial | Character strings in full; NULL and unsigned INTEGER as far as the element goes; contents are not checked (C66_violation_null, _integer, _octet_string, _bit_string). |
| C67 | Generated XER codecs round-trip | partial | All types of unbounded nesting except REAL, OBJECT IDENTIFIER and time types; names of 1 to 99 characters, at most 511 octets and 2047 bits, strings without '<' (C67_violation_less_than), strings that are components and not type assignments of their own (C67_violation_string). |
| C68 | The announced XER size is enough | partial | Without white space (C68_violation_white), items of an ENUMERATED at most twice as long as each other (C68_violation_enumerated), no reference without a tag. |
| C69 | Generated XER decoders return TRUE only with a value of the type | partial | INTEGER, BOOLEAN, NULL, strings, SEQUENCE, SEQUENCE OF without lower bound, CHOICE without a tag, of unbounded nesting. False for ENUMERATED, SEQUENCE OF with a lower bound, CHOICE with a tag, OCTET STRING (C69_violation_*); a failed INTEGER may be masked by the old contents (C69_violation_integer). |
| C70 | Generated XER decoders are safe on hostile input | partial | Texts without double quotes and without 19 digits in a row (C64); BIT STRING of 2041 bits or more (C70_violation_bits), strings whose sizeof is right (C70_violation_string). |
| C71 | Generated ACN codecs round-trip | partial | All types and ACN specifications of the model, of unbounded nesting; parameters with one dependent, determinants in front of what they describe, values that give each inserted determinant a value that fits (C72). False for mapping functions with 16 bit two's complement big endian integers (C71_violation_mapping). |
| C72 | Determinants agree with what they describe | partial | An encoder that returns TRUE never sends a contradiction (C72_no_contradiction), and sends the required value (C71_encoding_partial); but some values that satisfy the constraints are refused: C72_violation_absent, C72_violation_parameter. |
| C73 | Generated ACN decoders are safe on hostile input | partial | All types of unbounded nesting that AcnGuarded admits. False otherwise: a length determinant whose bits can say more than its declared range (C73_violation_overflow, _overflow_bits: buffer overflow), that can be negative (_negative), or that is inside an OPTIONAL component (_uninitialised); ASCII integers (_ascii); null terminated strings (_string). |
| C74 | The announced ACN sizes are right | partial | Types as in C71; components without ACN properties as in C34. The announced minimum is too large for lists whose elements differ in size (C74_violation_min_list) and for components that are always absent (C74_violation_min_absent). |
| C75 | What a generated ACN decoder accepts satisfies the ASN.1 constraints | partial | All types of unbounded nesting and all stream states; components without ACN properties as in C48. |
| C76 | ACN encodings are unambiguous | partial | As C71. |
| C77 | Generated ACN decoders refuse truncated messages | partial | As C71, without 32 bit little endian REAL (C77_violation_real32), alignment to 16 or 32 bits (C77_violation_align) and the uPER strings of C37. |
| C78 | What a generated ACN decoder accepts can be sent on | partial | Types that AcnGuarded (C73) and AcnRelays admit. False otherwise: the length of an absent component (C78_violation_absent), a length shared by a character string and something else (C78_violation_clipped). |
| C79 | The generated _Equal compares values | partial | All types of unbounded nesting without REAL; with REAL up to Asn1Real_Equal (C79_withReal, C79_same). False for REAL (C79_real_violation) and for an absent component whose DEFAULT is given explicitly (C79_default_violation). |
| C80 | The generated _IsConstraintValid decides the constraints | partial | All types of unbounded nesting whose constraints CTy.Fits admits. False otherwise: WITH COMPONENT(S) as the right operand of a union (C80_union_violation, C80_unionAbsent_violation), single values of SEQUENCE, SEQUENCE OF, CHOICE (C80_singleValue_violation, C80_exceptValue_violation), SIZE in types of fixed size (C80_exceptSize_violation, C80_fixedReference_violation). Time types are not modelled. |
| C81 | _IsConstraintValid finds objects that hold no value | partial | Types whose first constraint is SIZE. False for negative counts (C81_negative_violation), octets above 127 (C81_character_violation), numbers that are no item (C81_item_violation), more than 20 arcs (C81_arcs_violation), WITH COMPONENT before SIZE (C81_componentFirst_violation). |
| C82 | _Initialize makes a valid value | partial | All types of unbounded nesting that CTy.InitOk admits. False otherwise: EXCEPT (C82_allExcept_violation, C82_except_violation, C82_octetsExcept_violation), open ranges of REAL (C82_realOpen_violation), single values of BIT STRING and strings (C82_bitsValue_violation, C82_strValue_violation), unprintable alphabets (C82_alphabet_violation), OBJECT IDENTIFIER (C82_oid_violation), an absent first alternative (C82_choiceAbsent_violation). WITH COMPONENT(S) is not modelled here. |
| C83 | Declared values are stored as declared | partial | All types of unbounded nesting. False for BIT STRING of variable size (C83_bits_violation), for a reference that fixes the size of a type of variable size (C83_fixedReference_violation) and for quotation marks in strings (C83_quote_violation). |
| C84 | Generated headers declare before use | proved | All files, modules and types of unbounded number and nesting. |
| C85 | Generated headers do not include each other in a circle | partial | Files with one module each. False otherwise: C85_twoModules_violation. |
| C86 | ACN properties of INTEGER that the compiler accepts can be encoded | partial | All ranges and properties, except what the compiler does not check: -10^(n-1) in n ASCII characters (C86_ascii_violation), negative numbers in BCD digits with a terminator (C86_bcd_violation: writes outside a buffer of the announced size), terminators that are digits or empty (C86_terminator_violation, C86_noTerminator_violation); and ASCII digits for ranges without negative numbers are rejected although they fit (C86_rejected_violation). Mapping functions are left out here. |
| C87 | Items of ENUMERATED are numbered as X.680 says and travel without loss | partial | All lists of items. The round trip needs distinct numbers in the ACN specification (C87_twice_violation) and no negative numbers in the uPER encoding (C87_negative_violation). |
| C88 | Presence expressions read in C as they read in ACN | partial | All expressions of unbounded depth without ACN constants, which are printed as nothing (C88_constant_violation). References into a SEQUENCE are always rejected (C88_nested_violation), and a path that is too long is accepted and reads another component (C88_longer_violation). |
| C89 | Presence expressions compute in C what they say in ACN | partial | All expressions of unbounded depth over INTEGER and BOOLEAN whose numbers fit the C types of the operations (Representable; C89_small_partial gives a simple condition). False otherwise: comparison of an unsigned component with a negative number (C89_unsigned_violation), unsigned subtraction (C89_wrap_violation), overflow and division by zero (C89_undefined_violation), components that come later (C89_late_violation). REAL is not modelled here. |
| C90 | XER decoders read any layout | partial | All types of unbounded nesting and all layouts, for names, sizes and texts as in C67. |
| C91 | LoadXmlFile loads what the file says | partial | All files whose comments contain no `->`, with at most 4096 characters of white space in one place and strings of at most 4096 characters; C91_safe for all files. False otherwise: C91_long_violation, C91_comment_violation (a wrong number is read), C91_doctype_violation (nothing is loaded, TRUE). That the file can be opened is assumed. |
| C92 | C types get different names | partial | C92_distinct and C92_own_names for all requests; the end for fewer than 2^32 types and type prefixes of letters, digits, underscores; identifiers if no name ends in a number of more than eight digits (else C92_overflow_violation); function names if no type name ends in one of the words put behind type names (else C92_function_violation). |
| C93 | Enumerants get different names | partial | C93_distinct and C93_own_names for all inputs that are finished, policy SelectiveEnumerants (the default for C). The end if value names differ over all modules (else the compiler never finishes, C93_hang_violation). False otherwise: C93_crash_violation (exception), C93_names_violation (C99 keywords, names of values with hyphens, names of types). |
| C94 | What passes the check is encoded, and decoded into an equal object | partial | All types of unbounded nesting and all objects. Missing: constraint forms outside CTy.Fits (C80), types outside Ok (C35), constraints with extension markers or MIN in intersections, references to SEQUENCE and CHOICE types with constraints of their own, references that fix the size of a type of variable size (there the statement is false: C94_fixedReference_violation), NumericString (Computed); integers outside 64 bits, reals that the encoding does not hold, components against their PRESENT/ABSENT mark (Codable); REAL in the comparison by _Equal (C79). |
| C95 | Values mean what they say | partial | All types and values of unbounded nesting. False otherwise: a component given twice is accepted (C95_twice_violation), a value of a type A for a type B ::= A is refused (C95_governor_violation), a literal '...'H with an odd number of digits gets four bits too many as a BIT STRING (C95_oddDigits_violation). Names inside OBJECT IDENTIFIER values and time values are not modelled. |
| C96 | Constraints mean what they say | partial | All constraints of unbounded nesting that are translated, if single values in them are values of the type. INCLUDES and MIN..MAX are the subject of C99; the WITH COMPONENTS of a SEQUENCE without `...` is treated as with it (X.680 51.8.5 is not modelled). |
| C97 | DEFAULT values are accepted exactly if they satisfy the type | partial | All types and constraints of unbounded nesting of the forms NTy.Plain, values as in NTy.Direct. False otherwise: C97_real_violation (REAL (1..2) DEFAULT 2.5 accepted), C97_module_violation, C97_padding_violation, C97_inside_violation, C97_present_violation (accepted although invalid); C97_names_violation, C97_innerSize_violation, C97_optional_violation, C97_alphabet_violation, C97_oid_violation, C97_bitsForOctets_violation (refused although valid). |
| C98 | Constants are the values that were assigned | partial | All types and values of unbounded nesting that CTy.Constant admits. False otherwise: BIT STRING of variable size (C98_bits_violation: the count is that of octets), references that fix the size of a type of variable size (C98_fixedReference_violation, C98_fixedReference2_violation, C98_fixedElements_violation), quotation marks (C98_quote_violation), a SEQUENCE of optional components without any (C98_noComponents_violation) and infinite REAL values (C98_infinity_violation: the C compiler rejects the constant). That 20 decimal digits identify a finite double is assumed. |
| C99 | MIN..MAX and included types keep their meaning | partial | All constraints of unbounded nesting in which included types without constraints occur only where they may be dropped (SC.Regular). False otherwise: INTEGER (1..5 | T) with T ::= INTEGER becomes (1..5) (C99_union_violation), WITH COMPONENTS { a (T) PRESENT } loses PRESENT (C99_mark_violation), (1..5 EXCEPT T) loses the exception (C99_except_violation), (1..5, ..., MIN..MAX) becomes (1..5, ...) (C99_extension_violation). Constraints on parts of an included type are not modelled. |
| C100 | The generated check and codec do what the ASN.1 text says | partial | Types of unbounded nesting that are compiled (an error otherwise) and for which CTy.Fits, Ok (no violation of C47, C80) and NTy.Ordinary hold. Not modelled in this chain: extension markers in INTEGER, SIZE and FROM, single values of SEQUENCE OF, nested WITH COMPONENT, references on which an outer WITH COMPONENTS puts constraints; the round trip (not the check) also excludes references to SEQUENCE and CHOICE types with constraints of their own, WITH COMPONENT at a reference, and references that fix the size of a type of variable size (C94_fixedReference_violation). C100_object_partial: numbers of 64 bits, OBJECT IDENTIFIERs of up to 20 arcs. A type ENUMERATED without constraints gets the constraint of all its items before (CreateAsn1AstFromAntlrTree.fs:560-568); the theorems speak about the type with or without it. |
| C101 | Instances of parameterized types have the values X.683 gives them | partial | Specifications of unbounded size with instances nested without bound that are tidy (PProg.Tidy), given that the removal ends with a result; that it ends is not proved. False otherwise: an extensible constraint in a parameterized type makes the compiler run forever (C101_extensible_violation), a name in a constraint of an actual parameter is captured by an inner dummy reference (C101_capture_violation), a value passed on to an inner instance is not put in (C101_passedOn_violation), a constraint on a dummy reference that is an actual parameter is lost (C101_dropped_violation), a dummy reference inside a larger actual parameter stays (C101_deep_violation). Not modelled: implicit imports, ACN properties, COMPONENTS OF, included types, the module of ENUMERATED items. |
| C102 | References to determinants mean what they say | partial | Types of unbounded nesting with as many arguments as parameters (an error before otherwise, AcnCreateFromAntlr.fs:1524-1526) and distinct names. False otherwise: a parameter of an enclosing type captures a name of a type inside it (C102_capture_violation, C102_inside_partial gives the condition); a determinant may stand in an OPTIONAL component that is absent (C102_optional_violation); values of present-when are compared with the range only for the first alternative (C102_value_violation); an actual parameter for a parameter of a named type is not checked (C102_argument_violation); a determinant encoded in uPER is not checked for its range (C102_uper_violation); names after that of a parameter are ignored (C102_tail_violation). present-when expressions are in C88 and C89 and not here. |
| C103 | The compiler accepts the legal types and can translate what it accepts | partial | Types and constraints of unbounded nesting whose values name no component twice and no value of a type that is a reference (Plainly); for names, DEFAULTs and ENUMERATED items also as in C97 (NTy.Plain, NTy.Defaults). The check alone is too weak: a range on a string outside FROM and a negative SIZE pass it and are refused only by the translation (C103_late_violation). A reference whose constraints leave no ENUMERATED item is accepted, though the same constraints in one place are refused (C103_empty_violation). Choices of the specification: the mark OPTIONAL on a mandatory component counts as allowed in a constraint, and a type without values (INTEGER (5..1)) as legal. Legal but not translated: sizes from 2^32, constraints on NULL. Not modelled: clashes of names with keywords, modules and types; exports; included types and MIN..MAX (C99); NumericString, RELATIVE-OID and time types. |
| C104 | A name means the assignment that X.680 says, in whichever module it is | partial | Any number of modules with types of unbounded nesting; no module has two clauses that import from the same module (the second one would be dropped when implicit imports are merged), and the name of a reference is not that of a module from which there are imports. False otherwise: the type of a value with such a name is taken from that module (C104_capture_violation), and a reference with such a name that means nothing is accepted (C104_stray_violation). Legal modules are refused if a module uses a type that is not in its own EXPORTS list (C104_private_violation), if B.T is used where T means another type (C104_external_violation), and if a name is imported from a module that imported it (C104_again_violation); SupportedNames says exactly what is left (C104_decides_partial). A type B.T that only a value uses is missing from the imports (C104_valueImport_violation). Recursive types and modules that import each other are refused (C84). Not modelled: keywords and names that differ only in case, value references inside constraints (only which assignment their name leads to), parameterized types (C101), COMPONENTS OF. |
| C105 | The automatic test cases are values of the type, reach its edges and pass | partial | Types of unbounded nesting under CTy.TestOk (sizes that the constraints admit, an alphabet without NUL or the whole of ASCII, no constraints on a whole SEQUENCE or CHOICE, for every mandatory component a test case or a valid zero value), for C105_passes_partial also under the conditions of C80, C35 and C94, without REAL. False otherwise, with a test case that is not a value of the type: fragmentation sizes below the minimum (C105_fragment_violation), a reference that fixes the size of a type of variable size (C105_fixedReference_violation), an alphabet with NUL (C105_nul_violation), single values of strings (C105_strValue_violation), values excluded from an OCTET STRING (C105_octetsExcept_violation), single values of a BIT STRING (C105_bitsValue_violation), a component whose type has no test case (C105_noCase_violation). Edges are missed with EXCEPT (C105_except_violation), and NULL components are never varied, so that a type may have no test case at all (C105_null_violation). Empty SEQUENCE OF values are not tested. Not modelled: test cases of ACN, of WITH COMPONENT(S) constraints and of time types. |
| C106 | COMPONENTS OF, named bits, string lists and names of values keep their meaning | partial | Any number of assignments, types and values of unbounded nesting. Values: no named bit beyond the size of its type, named values of ENUMERATED types are assigned in the module of the type, no value is named cr, lf, ht or nul, and (only for acceptance) the notation avoids what the compiler does not know of (GEnv.Avoids). False otherwise: COMPONENTS OF a type that is a name of a SEQUENCE type is refused (C106_reference_violation), the name of an ENUMERATED value is looked up in the module of the type and may mean another value there (C106_capture_violation), a named bit beyond the size is dropped without a message (C106_dropped_violation), {} is refused for a BIT STRING (C106_noFlags_violation), a value assignment named cr is not heeded in a string list (C106_special_violation), names of strings in a string list and lists for NumericString are refused (C106_parts_violation). Not modelled: the values in constraints (mapped by the same function), constraints on a reference to a BIT STRING type (the length of a value given by named bits follows the type behind the reference, so that such a value may be refused), time types, named bits given by a reference. |
| C107 | OBJECT IDENTIFIER and RELATIVE-OID values stand for the numbers that X.680 and X.660 give them | partial | Any number of components and value assignments. No value may be named iso, itu-t, ccitt, joint-iso-itu-t or joint-iso-ccitt: in a RELATIVE-OID the compiler takes such a name for the number of X.660 (C107_capture_violation). Legal values are refused if they have a name of X.660 after a number (C107_keyword_violation), an INTEGER value as a component of its own, or Module.value (C107_values_violation). Values that are not legal are accepted: a negative number through name(value) (C107_negative_violation), an OBJECT IDENTIFIER value in the middle of another (C107_middle_violation). The compiler does not end for a RELATIVE-OID value that contains itself (C107_loop_violation). The specification lets a name of X.660 after a number stand for nothing if there is also a value of that name. Not modelled: how the grammar tells an OBJECT IDENTIFIER value from other values in braces ({ base } and { base 5 } also fit other alternatives of the grammar), the module in which a bare name is looked up (C104). |
| C108 | The literals of an ASN.1 file stand for the values that X.680 gives them | partial | Texts of any length. Character strings: one line without quotation marks; the compiler keeps both of two quotation marks that stand for one (C108_quote_violation) and keeps line breaks with the blanks around them (C108_lines_violation). REAL: base 2 with 2^e in the range of doubles, base 10 with exponents 0 to 22 and mantissas below 2^53. Outside: {mantissa 3, base 10, exponent -1} is not the double nearest to 0.3 even with a perfect power function (C108_tenth_violation), {mantissa 1024, base 2, exponent -1080} becomes 0 (C108_tiny_violation), {mantissa 0, base 2, exponent 2000} becomes NaN (C108_zero_violation). Math.Pow is a parameter, assumed to be exact where the result is a double (PowExact, which a correctly rounded function meets); the conversion of integers to doubles and the product are assumed to round correctly as in IEEE 754. Not modelled: the lexer, numbers with a decimal point (Double.Parse of .NET). |
| C109 | The enumerators for the alternatives of CHOICE types have different names | partial | Any number of alternatives, for the policy SelectiveEnumerants, which is the default for C. Different from the items of ENUMERATED types only if no item ends in PRESENT (C109_enumerant_violation: on-PRESENT and an alternative on give the same enumerator twice). Legal specifications are refused with an error message when no unused part of the key is left: the first round is characterised (C109_crash_partial), and two alternatives of one CHOICE that differ only in capital letters are always refused (C109_case_violation). Letters are compared as in a culture that pairs A-Z with a-z. With -renamePolicy 2 (AllEnumerants) the names are different if the compiler finishes (C109_all_distinct), but it goes on forever for a CHOICE inside a CHOICE whose alternatives need new names (C109_all_violation). Not modelled: the policy AlwaysPrefixTypeName. |
| C110 | A value range selects the values between its ends | partial | All ranges of INTEGER with literals as ends. A < beside MIN or MAX is dropped without a message, so that INTEGER (0..10) (MIN<..<MAX) contains 0 and 10 (C110_open_violation). With a word size of 4 octets the check still uses the limits of 64 bits (C110_word_violation). Not modelled here: ends given by names, which the check does not look at (C103). |
| C111 | A REAL that is kept in a C float is not changed on the way | partial | Every float except NaN and, in uPER, -0, which is read as +0 (C111_zero_violation). Numbers with more digits: below the range in which rounding gives infinity. A finite number beyond it is read as infinity and the decoder reports success (C111_large_violation). Small doubles below 2^-971 are subject to C19. The conversions between float and double of the C compiler are taken to be those of IEEE 754 (round to nearest, ties to even); C111_value, C111_nearest_partial and C111_acn_nearest_partial prove that the modelled ones are. After a failed read BitStream_DecodeReal_fp32 converts a double that was never set, which C leaves undefined; the model converts 0 there. |
| C112 | With -fpWordSize 4 a REAL comes back unchanged | partial | Round trip: every float of magnitude at least 2^-104, +0 and the infinities. Every smaller number comes back as 0 and the decoder reports success, because the power of two in the divisor becomes infinite (C112_small_violation, for all of them); -0 comes back as +0 (C112_zero_violation). What is sent stands for the number for all normal floats; subnormal ones are sent with a bit that they do not have (C112_subnormal_violation). A double that a peer sends is read as 0 already below 2^-75 although it is a float, because its mantissa has 53 bits (C112_peer_violation). Products and quotients of float are modelled as those of double rounded to float, as in C with FLT_EVAL_METHOD 0; for the quotient this uses that double rounding is harmless for 24 and 53 bits, which is not proved here. From a peer with double every float of at least 2^-75 arrives (C112_peer_partial); from any peer every normal float whose encoding has a power of two of at least -127 and a mantissa of at most 64 bits (C112_read_partial). Safety (C112_safe_partial) has the conditions of C58, and outside them the decoder has undefined behaviour (C112_negate_violation, C112_multiply_violation, C112_past_end_violation). Not modelled: USE_LDEXP. Under the same conditions every number from 2^-126 up to what still rounds to a float is read as the nearest float, ties to even (C112_nearest_partial). Not proved: rounding below 2^-126 and above. |
| C113 | The members of generated structs and unions have usable names | partial | Any number of components, for the target language C. From the text to the struct: C113_struct_partial. Keywords of the first C standard are avoided in all cases but one: a prefix given with -fp can make a keyword (C113_prefix_violation, i and f). Keywords that came in 1999 are kept (C113_inline_violation). With -fp AUTO the members stay different for types of type assignments; inside another type int and a-int in a component a both become a_int (C113_nested_violation). A component exist beside an OPTIONAL one gives two members exist (C113_exist_violation). Not modelled: the clashes with types and modules that concern Ada and Scala only, types written in value assignments, ASN1SCC_DISABLE_KEYW_CHECKS. |
