{"id": "C01", "title": "Append calls build an exact bit log", "statement": "After BitStream_Init, any sequence of append calls (AppendBit, AppendBitOne, AppendBitZero, AppendNBitZero, AppendNBitOne, AppendBits, AppendByte, AppendByte0, AppendPartialByte, AppendByteArray) whose total size fits the buffer leaves a buffer whose bits, most significant first, are exactly the concatenation of the requested bits in call order followed by zero bits, and BitStream_GetLength is that bit count rounded up to bytes.", "quantifier": "every buffer size, every finite sequence of append calls with every argument, every starting bit offset", "why_tests_cant": "The number of call sequences, offsets and argument values is unbounded; a test fixes one interleaving and one alignment.", "anchors": ["asn1crt/asn1crt_encoding.c:BitStream_Init", "asn1crt/asn1crt_encoding.c:BitStream_AppendBitOne", "asn1crt/asn1crt_encoding.c:BitStream_AppendBitZero", "asn1crt/asn1crt_encoding.c:BitStream_AppendNBitZero", "asn1crt/asn1crt_encoding.c:BitStream_AppendNBitOne", "asn1crt/asn1crt_encoding.c:BitStream_AppendBits", "asn1crt/asn1crt_encoding.c:BitStream_AppendBit", "asn1crt/asn1crt_encoding.c:BitStream_AppendByte", "asn1crt/asn1crt_encoding.c:BitStream_AppendByte0", "asn1crt/asn1crt_encoding.c:BitStream_AppendByteArray", "asn1crt/asn1crt_encoding.c:BitStream_AppendPartialByte", "asn1crt/asn1crt_encoding.c:BitStream_GetLength"]}
{"id": "C02", "title": "Read calls replay the bit log", "statement": "Reading with BitStream_ReadBit, ReadBits, ReadByte, ReadByteArray, ReadPartialByte from any position returns exactly the next bits of the buffer in order, advances the cursor by exactly that many bits, and never modifies the buffer; any sequence of reads therefore reproduces the bits any sequence of appends wrote, independently of how the two sequences were chunked.", "quantifier": "every buffer content, every position, every sequence of read calls that stays inside the data", "why_tests_cant": "Chunk boundaries of writer and reader combine in unboundedly many ways at all eight bit offsets.", "anchors": ["asn1crt/asn1crt_encoding.c:BitStream_ReadBit", "asn1crt/asn1crt_encoding.c:BitStream_ReadBits", "asn1crt/asn1crt_encoding.c:BitStream_ReadByte", "asn1crt/asn1crt_encoding.c:BitStream_ReadByteArray", "asn1crt/asn1crt_encoding.c:BitStream_ReadPartialByte"]}
{"id": "C03", "title": "Appending never disturbs what was already written and never leaves the buffer", "statement": "When the requested bits fit, every append or encode call leaves all previously written bits unchanged, keeps the buffer size, touches no memory outside the buffer and trips no assertion.", "quantifier": "every reachable encoder state, every value, every call", "why_tests_cant": "Absence of an out-of-bounds access or of a clobbered earlier bit has to hold in every state; a test only sees the states it creates.", "anchors": ["asn1crt/asn1crt_encoding.c:BitStream_AppendByte", "asn1crt/asn1crt_encoding.c:BitStream_AppendPartialByte", "asn1crt/asn1crt_encoding.c:BitStream_AppendByteArray"]}
{"id": "C04", "title": "A full buffer is reported, not overrun", "statement": "When there is not enough room for the requested bits, each append or encode call reports failure without accessing memory outside the buffer.", "quantifier": "every stream state with too little room, every append call", "why_tests_cant": "The failing states depend on the combination of buffer size, position and length.", "anchors": ["asn1crt/asn1crt_encoding.c:BitStream_AppendByte0", "asn1crt/asn1crt_encoding.c:BitStream_AppendByteArray", "asn1crt/asn1crt_encoding.c:BitStream_AppendBitOne", "asn1crt/asn1crt_encoding.c:BitStream_AppendBit"]}
{"id": "C05", "title": "Decoding any byte string stays inside the buffer", "statement": "For every input byte string (valid, truncated or hostile), every integer, string, bit and OID decode call either succeeds or returns FALSE; it never reads outside the attached buffer and never trips undefined behaviour.", "quantifier": "every byte string, every position, every decode call with every parameter the generated code can pass", "why_tests_cant": "Hostile inputs form an infinite set; fuzzing can only sample it.", "anchors": ["asn1crt/asn1crt_encoding.c:BitStream_ReadBit", "asn1crt/asn1crt_encoding.c:BitStream_ReadPartialByte", "asn1crt/asn1crt_encoding.c:BitStream_PeekBit", "asn1crt/asn1crt_encoding.c:BitStream_DecodeConstraintWholeNumber", "asn1crt/asn1crt_encoding.c:BitStream_DecodeSemiConstraintWholeNumber", "asn1crt/asn1crt_encoding.c:BitStream_DecodeUnConstraintWholeNumber"]}
{"id": "C06", "title": "An encoding depends only on the value", "statement": "After BitStream_Init, the bytes produced by a sequence of encode calls do not depend on what the buffer contained before; two encoders given buffers with different old content produce the same bytes.", "quantifier": "every previous buffer content, every sequence of encode calls", "why_tests_cant": "All old contents of the buffer have to be considered.", "anchors": ["asn1crt/asn1crt_encoding.c:BitStream_Init", "asn1crt/asn1crt_encoding.c:BitStream_AttachBuffer", "asn1crt/asn1crt_encoding.c:BitStream_AppendNBitZero", "asn1crt/asn1crt_encoding.c:BitStream_AppendPartialByte"]}
{"id": "C07", "title": "Constrained integers round-trip in the minimum number of bits", "statement": "For min <= v <= max, EncodeConstraintWholeNumber writes exactly the least number of bits that can hold max-min, and DecodeConstraintWholeNumber with the same bounds, started where the encoder started, returns TRUE and v and stops where the encoder stopped, whatever follows.", "quantifier": "every signed 64-bit min, max, v with min <= v <= max, every position and following data", "why_tests_cant": "2^192 parameter combinations times 8 alignments.", "anchors": ["asn1crt/asn1crt_encoding.c:BitStream_EncodeConstraintWholeNumber", "asn1crt/asn1crt_encoding.c:BitStream_DecodeConstraintWholeNumber", "asn1crt/asn1crt_encoding.c:GetNumberOfBitsForNonNegativeInteger"]}
{"id": "C08", "title": "Constrained decoding never yields a value outside its bounds", "statement": "Whenever DecodeConstraintWholeNumber or DecodeConstraintPosWholeNumber returns TRUE the value lies in [min,max]; a bit pattern above max-min is rejected.", "quantifier": "every input, every bounds", "why_tests_cant": "All bit patterns and all bounds.", "anchors": ["asn1crt/asn1crt_encoding.c:BitStream_DecodeConstraintWholeNumber", "asn1crt/asn1crt_encoding.c:BitStream_DecodeConstraintPosWholeNumber"]}
{"id": "C09", "title": "Non-negative constrained integers round-trip over the whole unsigned range", "statement": "As C07 for EncodeConstraintPosWholeNumber/DecodeConstraintPosWholeNumber with unsigned 64-bit bounds.", "quantifier": "every unsigned 64-bit min, max, v with min <= v <= max", "why_tests_cant": "Parameter space too large to enumerate, includes values above 2^63.", "anchors": ["asn1crt/asn1crt_encoding.c:BitStream_EncodeConstraintPosWholeNumber", "asn1crt/asn1crt_encoding.c:BitStream_DecodeConstraintPosWholeNumber"]}
{"id": "C10", "title": "Semi-constrained integers round-trip in minimal octets", "statement": "For v >= min, EncodeSemiConstraint(Pos)WholeNumber writes one length octet n followed by the n-octet big-endian value v-min with n the least number of octets (at least one), and the matching decoder returns TRUE and v.", "quantifier": "every signed (respectively unsigned) 64-bit min and v with v >= min", "why_tests_cant": "Parameter space too large to enumerate.", "anchors": ["asn1crt/asn1crt_encoding.c:BitStream_EncodeSemiConstraintWholeNumber", "asn1crt/asn1crt_encoding.c:BitStream_DecodeSemiConstraintWholeNumber", "asn1crt/asn1crt_encoding.c:BitStream_EncodeSemiConstraintPosWholeNumber", "asn1crt/asn1crt_encoding.c:BitStream_DecodeSemiConstraintPosWholeNumber"]}
{"id": "C11", "title": "Unconstrained integers round-trip in minimal two's complement", "statement": "EncodeUnConstraintWholeNumber writes one length octet n and the n-octet two's complement of v, with n minimal, and DecodeUnConstraintWholeNumber returns TRUE and v.", "quantifier": "every signed 64-bit v", "why_tests_cant": "2^64 values, interesting ones at every octet boundary and at the extremes.", "anchors": ["asn1crt/asn1crt_encoding.c:BitStream_EncodeUnConstraintWholeNumber", "asn1crt/asn1crt_encoding.c:BitStream_DecodeUnConstraintWholeNumber", "asn1crt/asn1crt_encoding.c:GetLengthInBytesOfSInt"]}
{"id": "C12", "title": "Bit and octet length functions are exact minima", "statement": "GetNumberOfBitsForNonNegativeInteger(v) is the least n with v < 2^n, GetLengthInBytesOfUInt(v) is the least n >= 1 with v < 256^n, and GetLengthInBytesOfSInt(v) is the least n >= 1 such that v fits in n octets of two's complement.", "quantifier": "every 64-bit value", "why_tests_cant": "2^64 values.", "anchors": ["asn1crt/asn1crt_encoding.c:GetNumberOfBitsForNonNegativeInteger", "asn1crt/asn1crt_encoding.c:GetLengthInBytesOfUInt", "asn1crt/asn1crt_encoding.c:GetLengthInBytesOfSInt"]}
{"id": "C13", "title": "Signed/unsigned conversion helpers are inverse", "statement": "uint2int(int2uint(v), n) = v for every v that fits in n octets, and int2uint is the two's complement reading of v.", "quantifier": "every signed 64-bit v and every octet count 1..8", "why_tests_cant": "2^64 values times 8 widths.", "anchors": ["asn1crt/asn1crt.c:int2uint", "asn1crt/asn1crt.c:uint2int"]}
{"id": "C14", "title": "Octet strings round-trip at every length", "statement": "EncodeOctetString followed by DecodeOctetString with the same size bounds returns TRUE, the same length and the same octets, for fixed size, for variable size below 65536, and for fragmented encodings of 65536 or more.", "quantifier": "every octet list with min <= length <= max, every size bounds, every position", "why_tests_cant": "Unbounded lengths; the fragmentation loop has a different shape for each length.", "anchors": ["asn1crt/asn1crt_encoding.c:BitStream_EncodeOctetString", "asn1crt/asn1crt_encoding.c:BitStream_DecodeOctetString", "asn1crt/asn1crt_encoding.c:BitStream_EncodeOctetString_fragmentation", "asn1crt/asn1crt_encoding.c:BitStream_DecodeOctetString_fragmentation"]}
{"id": "C15", "title": "Bit strings round-trip at every length", "statement": "EncodeBitString followed by DecodeBitString with the same size bounds returns TRUE, the same bit count and the same bits, including fragmented encodings.", "quantifier": "every bit list with min <= length <= max, every size bounds, every position", "why_tests_cant": "Unbounded lengths and all eight alignments of source and destination.", "anchors": ["asn1crt/asn1crt_encoding.c:BitStream_EncodeBitString", "asn1crt/asn1crt_encoding.c:BitStream_DecodeBitString"]}
{"id": "C16", "title": "Truncated octet strings are rejected", "statement": "If the input ends before all octets announced by the length are present, DecodeOctetString returns FALSE.", "quantifier": "every truncated input, every size bounds", "why_tests_cant": "All truncation points of all inputs.", "anchors": ["asn1crt/asn1crt_encoding.c:BitStream_DecodeOctetString", "asn1crt/asn1crt_encoding.c:BitStream_DecodeOctetString_no_length"]}
{"id": "C17", "title": "String decoders never write past the destination capacity", "statement": "Whatever the input, DecodeOctetString/DecodeBitString and the ACN string decoders write at most the declared maximum number of elements (plus the terminating zero for character strings) into the caller's array.", "quantifier": "every input, every size bounds", "why_tests_cant": "Hostile lengths in the input; all inputs.", "anchors": ["asn1crt/asn1crt_encoding.c:BitStream_DecodeOctetString_fragmentation", "asn1crt/asn1crt_encoding.c:BitStream_DecodeBitString", "asn1crt/asn1crt_encoding_acn.c:Acn_Dec_String_Ascii_Null_Terminated_mult"]}
{"id": "C18", "title": "Object identifiers round-trip", "statement": "ObjectIdentifier_uper_encode followed by ObjectIdentifier_uper_decode returns TRUE and the same component list for every valid OID; likewise for relative OIDs.", "quantifier": "every valid component list up to the 20-component limit, every 64-bit component", "why_tests_cant": "Component values range over 2^64 each.", "anchors": ["asn1crt/asn1crt_encoding_uper.c:ObjectIdentifier_uper_encode", "asn1crt/asn1crt_encoding_uper.c:ObjectIdentifier_uper_decode", "asn1crt/asn1crt_encoding_uper.c:RelativeOID_uper_encode", "asn1crt/asn1crt_encoding_uper.c:RelativeOID_uper_decode"]}
{"id": "C19", "title": "REAL values round-trip", "statement": "EncodeReal followed by DecodeReal returns TRUE and the same double, bit for bit, for every finite non-NaN double, and infinities and NaN are preserved.", "quantifier": "every 64-bit double", "why_tests_cant": "2^64 doubles, with failing ranges that sampling misses.", "anchors": ["asn1crt/asn1crt_encoding.c:BitStream_EncodeReal", "asn1crt/asn1crt_encoding.c:BitStream_DecodeReal", "asn1crt/asn1crt_encoding.c:CalculateMantissaAndExponent", "asn1crt/asn1crt_encoding.c:GetDoubleByMantissaAndExp"]}
{"id": "C20", "title": "ACN fixed-size integers round-trip", "statement": "The ACN positive and two's-complement constant-size encoders (bit sizes 1..64 and the 8/16/32/64-bit big/little endian variants) write exactly the configured number of bits and the matching decoders return TRUE and the value.", "quantifier": "every value that fits the size, every size, every position", "why_tests_cant": "All values, sizes and alignments.", "anchors": ["asn1crt/asn1crt_encoding_acn.c:Acn_Enc_Int_PositiveInteger_ConstSize", "asn1crt/asn1crt_encoding_acn.c:Acn_Dec_Int_PositiveInteger_ConstSize", "asn1crt/asn1crt_encoding_acn.c:Acn_Enc_Int_TwosComplement_ConstSize", "asn1crt/asn1crt_encoding_acn.c:Acn_Dec_Int_TwosComplement_ConstSize"]}
{"id": "C21", "title": "ACN length-embedded integers round-trip", "statement": "Acn_Enc_Int_*_VarSize_LengthEmbedded followed by the matching decoder returns TRUE and the value, for positive and two's complement integers.", "quantifier": "every 64-bit value", "why_tests_cant": "2^64 values.", "anchors": ["asn1crt/asn1crt_encoding_acn.c:Acn_Enc_Int_PositiveInteger_VarSize_LengthEmbedded", "asn1crt/asn1crt_encoding_acn.c:Acn_Enc_Int_TwosComplement_VarSize_LengthEmbedded"]}
{"id": "C22", "title": "ACN BCD integers round-trip", "statement": "The BCD encoders (constant size, length embedded, null terminated) followed by the matching decoder return TRUE and the value.", "quantifier": "every unsigned 64-bit value that fits", "why_tests_cant": "2^64 values.", "anchors": ["asn1crt/asn1crt_encoding_acn.c:Acn_Enc_Int_BCD_ConstSize", "asn1crt/asn1crt_encoding_acn.c:Acn_Enc_Int_BCD_VarSize_LengthEmbedded", "asn1crt/asn1crt_encoding_acn.c:Acn_Enc_Int_BCD_VarSize_NullTerminated"]}
{"id": "C23", "title": "ACN ASCII integers round-trip", "statement": "The ASCII integer encoders (signed and unsigned; constant size, length embedded, null terminated) followed by the matching decoder return TRUE and the value.", "quantifier": "every 64-bit value that fits, every terminator", "why_tests_cant": "2^64 values and every terminator byte string.", "anchors": ["asn1crt/asn1crt_encoding_acn.c:Acn_Enc_SInt_ASCII_ConstSize", "asn1crt/asn1crt_encoding_acn.c:Acn_Enc_UInt_ASCII_VarSize_NullTerminated", "asn1crt/asn1crt_encoding_acn.c:Acn_Dec_UInt_ASCII_VarSize_NullTerminated"]}
{"id": "C24", "title": "ACN character strings round-trip", "statement": "Each Acn_Enc_String_* encoder followed by the matching decoder returns TRUE and the same string, for fixed size, null terminated (one or several terminator bytes), external and internal length determinants, ASCII and character-index encodings.", "quantifier": "every string admissible for the encoding, every maximum size, every alphabet", "why_tests_cant": "All strings, lengths and alphabets.", "anchors": ["asn1crt/asn1crt_encoding_acn.c:Acn_Enc_String_Ascii_FixSize", "asn1crt/asn1crt_encoding_acn.c:Acn_Enc_String_Ascii_Null_Terminated", "asn1crt/asn1crt_encoding_acn.c:Acn_Enc_String_CharIndex_FixSize", "asn1crt/asn1crt_encoding_acn.c:Acn_Dec_String_Ascii_Internal_Field_Determinant"]}
{"id": "C25", "title": "Alignment pads with zeros to the next boundary, minimally", "statement": "Acn_AlignToNextByte/Word/DWord move the cursor to the least multiple of 8/16/32 bits that is not before the current position; on encode the skipped bits are zero; encoder and decoder land on the same position.", "quantifier": "every position and buffer size with room", "why_tests_cant": "All positions.", "anchors": ["asn1crt/asn1crt_encoding_acn.c:Acn_AlignToNextByte", "asn1crt/asn1crt_encoding_acn.c:Acn_AlignToNextWord", "asn1crt/asn1crt_encoding_acn.c:Acn_AlignToNextDWord"]}
{"id": "C26", "title": "Deferred determinants are patched in place and only there", "statement": "After InitDet reserves a determinant and later fields are encoded, PatchDet leaves the cursor where it was, changes only the reserved bits, and a reader positioned at the reserved place decodes exactly the patched value.", "quantifier": "every determinant kind and width, every value that fits, every preceding and following content", "why_tests_cant": "Any history may separate reservation and patch; all alignments.", "anchors": ["asn1crt/asn1crt_encoding_acn.h:Acn_PatchDet", "asn1crt/asn1crt_encoding_acn.h:Acn_InitDet", "asn1crt/asn1crt_encoding_acn.c:Acn_Enc_Int_PositiveInteger_ConstSize"]}
{"id": "C27", "title": "A determinant used twice must agree", "statement": "When several fields patch the same determinant, encoding succeeds iff all the values agree; on disagreement error 203 is reported and the stream is unchanged.", "quantifier": "every sequence of patch calls on the same determinant", "why_tests_cant": "Unbounded number of patches and values.", "anchors": ["asn1crt/asn1crt_encoding_acn.h:ERR_ACN_DET_CONSISTENCY_MISMATCH"]}
{"id": "C28", "title": "BER length octets round-trip", "statement": "BerEncodeLength followed by BerDecodeLength returns TRUE and the length; the definite form written is the shortest.", "quantifier": "every length the encoder accepts", "why_tests_cant": "2^31 lengths.", "anchors": ["asn1crt/asn1crt_encoding_ber.c:BerEncodeLength", "asn1crt/asn1crt_encoding_ber.c:BerDecodeLength"]}
{"id": "C29", "title": "BER tag-length-value primitives round-trip", "statement": "BerEncodeX followed by BerDecodeX with the same tag returns TRUE, the value and no error for INTEGER, BOOLEAN, NULL, OCTET STRING, BIT STRING, IA5String, REAL; with a different tag the decoder returns FALSE.", "quantifier": "every value, every tag", "why_tests_cant": "All values and tags.", "anchors": ["asn1crt/asn1crt_encoding_ber.c:BerEncodeInteger", "asn1crt/asn1crt_encoding_ber.c:BerDecodeInteger", "asn1crt/asn1crt_encoding_ber.c:BerEncodeBoolean", "asn1crt/asn1crt_encoding_ber.c:BerEncodeOctetString", "asn1crt/asn1crt_encoding_ber.c:BerEncodeTag", "asn1crt/asn1crt_encoding_ber.c:BerDecodeTag"]}
{"id": "C30", "title": "BER byte access never leaves the buffer", "statement": "ByteStream_PutByte and ByteStream_GetByte fail at the end of the buffer without accessing memory outside it.", "quantifier": "every stream state", "why_tests_cant": "Every position including the boundary.", "anchors": ["asn1crt/asn1crt_encoding_ber.c:ByteStream_PutByte", "asn1crt/asn1crt_encoding_ber.c:ByteStream_GetByte"]}
{"id": "C31", "title": "binarySearch finds exactly the members of a sorted table", "statement": "For a strictly increasing table binarySearch returns i with values[i] = v when v is present and -1 otherwise; linearSearch agrees with membership on any table.", "quantifier": "every table and every value", "why_tests_cant": "Unbounded tables.", "anchors": ["asn1crt/asn1crt.c:binarySearch", "asn1crt/asn1crt.c:linearSearch"]}
{"id": "C32", "title": "Equality functions decide value equality", "statement": "ObjectIdentifier_equal, OctetString_equal and BitString_equal return TRUE iff the abstract values (component list, octet list, bit list) are equal; unused trailing bits of a bit string do not matter.", "quantifier": "every pair of values", "why_tests_cant": "All pairs of unbounded values.", "anchors": ["asn1crt/asn1crt.c:ObjectIdentifier_equal", "asn1crt/asn1crt_encoding.c:OctetString_equal", "asn1crt/asn1crt_encoding.c:BitString_equal"]}
{"id": "C33", "title": "The effective range contains every value the constraints allow", "statement": "The PER-visible range the compiler computes from an INTEGER (or SIZE) constraint expression contains every value that satisfies the constraint, so a valid value can always be encoded.", "quantifier": "every constraint expression and every value", "why_tests_cant": "Infinite expression trees.", "anchors": ["FrontEndAst/uPER.fs:getRangeTypeConstraintUperRange", "CommonTypes/CommonTypes.fs:uperIntersection", "CommonTypes/CommonTypes.fs:uperUnion"]}
{"id": "C34", "title": "Encodings never exceed the announced maximum size", "statement": "The uPER encoding of a valid value of a type takes at most REQUIRED_BITS_FOR_ENCODING bits, so a buffer of REQUIRED_BYTES_FOR_ENCODING octets is always enough, and at least the computed minimum.", "quantifier": "every type built from the supported constructors, every valid value", "why_tests_cant": "All types and values; nesting unbounded.", "anchors": ["FrontEndAst/uPER.fs:getSizeableTypeSize", "FrontEndAst/uPER.fs:getRequiredBitsForIntUperEncoding", "FrontEndAst/AcnCreateFromAntlr.fs:uperMaxSizeInBits"]}
{"id": "C35", "title": "Generated uPER codecs round-trip for every type", "statement": "For every type built from INTEGER, BOOLEAN, NULL, ENUMERATED, OCTET STRING, BIT STRING, character string, SEQUENCE with OPTIONAL/DEFAULT components, SEQUENCE OF and CHOICE, encoding a valid value into a buffer of the announced size and decoding the bytes gives back the value and consumes exactly what was written.", "quantifier": "every type of unbounded nesting, every valid value, every bit position", "why_tests_cant": "Types and values form an infinite inductive family.", "anchors": ["BackendAst/DAstUPer.fs:createSequenceFunction", "BackendAst/DAstUPer.fs:createChoiceFunction", "BackendAst/DAstUPer.fs:createSequenceOfFunction", "StgC/uper_c.stg"]}
{"id": "C36", "title": "uPER encodings are self-delimiting and unambiguous", "statement": "No encoding of a value of a type is a proper prefix of an encoding of another value of the same type, different values have different encodings, and concatenated messages decode one after the other.", "quantifier": "every type, every pair of values", "why_tests_cant": "Pairs of values of arbitrary types.", "anchors": ["BackendAst/DAstUPer.fs", "StgC/uper_c.stg"]}
{"id": "C37", "title": "A truncated message is never accepted", "statement": "If fewer bits are present than the encoding of a value requires, the generated decoder does not return TRUE.", "quantifier": "every type, every value, every proper prefix of its encoding", "why_tests_cant": "All truncation points of all messages.", "anchors": ["StgC/uper_c.stg:octet_VarSize_decode", "asn1crt/asn1crt_encoding.c:BitStream_DecodeOctetString"]}
{"id": "C38", "title": "Streaming mode writes the same bytes", "statement": "With ASN1SCC_STREAMING and any buffer size, the concatenation of the buffers handed to pushData and the final partial buffer equals what a large enough single buffer would contain.", "quantifier": "every streaming buffer size, every sequence of encode calls", "why_tests_cant": "Buffer size and call sequence interact at every boundary.", "anchors": ["asn1crt/asn1crt_encoding.c:BitStream_EncodeOctetString_no_length", "asn1crt/asn1crt_encoding.c:BitStream_AppendNBitZero"]}
{"id": "C39", "title": "Bit pattern checks match exactly the pattern", "statement": "BitStream_checkBitPatternPresent returns 2 and consumes the pattern iff the next bits equal it, 1 with the cursor unchanged iff enough bits remain and they differ, 0 iff too few bits remain; ReadBits_nullterminated returns exactly the bits before the first terminator.", "quantifier": "every buffer, position and pattern", "why_tests_cant": "All patterns and contents.", "anchors": ["asn1crt/asn1crt_encoding.c:BitStream_checkBitPatternPresent", "asn1crt/asn1crt_encoding.c:BitStream_ReadBits_nullterminated"]}
{"id": "C40", "title": "ACN booleans and IEEE754 reals round-trip", "statement": "Boolean values encoded with true/false patterns decode to the same value; IEEE754 32/64-bit big and little endian encoders write the exact byte image and the decoders restore it bit for bit.", "quantifier": "every pattern, every float/double bit pattern", "why_tests_cant": "2^64 patterns.", "anchors": ["asn1crt/asn1crt_encoding_acn.c:BitStream_DecodeTrueFalseBoolean", "asn1crt/asn1crt_encoding_acn.c:Acn_Enc_Real_IEEE754_64_big_endian"]}
{"id": "C41", "title": "MIL-STD-1553 length mapping is a bijection", "statement": "milbus_encode and milbus_decode are mutually inverse on 1..32 <-> 0..31.", "quantifier": "every admissible length", "why_tests_cant": "Stated for all values and both directions.", "anchors": ["asn1crt/asn1crt_encoding_acn.c:milbus_encode", "asn1crt/asn1crt_encoding_acn.c:milbus_decode"]}
{"id": "C42", "title": "Narrow decoders agree with the wide decoder", "statement": "The Int8/Int16/Int32/UInt8/UInt16/UInt32 decode variants return the same flag, cursor and value as the 64-bit decoder whenever the bounds fit the narrow type.", "quantifier": "every input and bounds fitting the narrow type", "why_tests_cant": "All inputs and bounds.", "anchors": ["asn1crt/asn1crt_encoding.c:BitStream_DecodeConstraintWholeNumberInt8", "asn1crt/asn1crt_encoding.c:BitStream_DecodeConstraintPosWholeNumberUInt32"]}
{"id": "C43", "title": "Accepted object identifiers are valid", "statement": "Whatever ObjectIdentifier_uper_decode accepts satisfies ObjectIdentifier_isValid and is a complete sequence of subidentifiers.", "quantifier": "every input", "why_tests_cant": "Needs the set of all accepted inputs.", "anchors": ["asn1crt/asn1crt_encoding_uper.c:ObjectIdentifier_uper_decode", "asn1crt/asn1crt.c:ObjectIdentifier_isValid"]}
{"id": "C44", "title": "Narrow ACN decoders agree with the wide decoder and accept only what fits", "statement": "The ..UInt8/UInt16/UInt32/Int8/Int16/Int32 variants of the ACN integer decoders return the same flag and cursor as the 64-bit decoder and the same value; a wire value that does not fit the narrow type is not accepted.", "quantifier": "every input, every narrow variant", "why_tests_cant": "All wire values, including those no encoder of the same specification produces.", "anchors": ["asn1crt/asn1crt_encoding_acn.c:Acn_Dec_Int_PositiveInteger_ConstSizeUInt8", "asn1crt/asn1crt_encoding_acn.c:Acn_Dec_Int_TwosComplement_ConstSize_big_endian_16Int8"]}
{"id": "C45", "title": "Generated decoders are safe on every input", "statement": "On any byte string and from any position, a generated uPER decoder neither reads nor writes outside the buffer (with one readable byte behind it), performs no overflowing signed arithmetic, triggers no assertion, changes nothing but the cursor, and if it returns TRUE the cursor is inside the buffer.", "quantifier": "every type of unbounded nesting, every input", "why_tests_cant": "All inputs of all types; fuzzing samples a few.", "anchors": ["StgC/uper_c.stg:FixedSize_Fragmentation_sqf_64K_decode", "BackendAst/DAstUPer.fs:createSequenceOfFunction", "asn1crt/asn1crt_encoding.c:BitStream_DecodeSemiConstraintWholeNumber"]}
{"id": "C46", "title": "ENUMERATED decoders return declared items only", "statement": "Whichever of the two code generation modes for ENUMERATED is selected, the decoder returns TRUE only with an item that the constraints allow and never reads outside its table.", "quantifier": "every enumeration, every input", "why_tests_cant": "Every index that can be received times every enumeration and mode.", "anchors": ["StgC/uper_c.stg:Enumerated_no_switch_decode", "StgC/header_c.stg:150-162", "StgC/uper_c.stg:Enumerated_decode"]}
{"id": "C47", "title": "Generated uPER encoders conform to X.691", "statement": "The bits a generated encoder writes for a valid value are exactly those the unaligned variant of X.691 prescribes, so other implementations can decode them.", "quantifier": "every type of unbounded nesting, every valid value", "why_tests_cant": "Round trip tests cannot notice a deviation that encoder and decoder share.", "anchors": ["BackendAst/DAstUPer.fs:createEnumeratedFunction", "BackendAst/DAstUPer.fs:handleFixedSizeFragmentation", "StgC/uper_c.stg"]}
{"id": "C48", "title": "Accepted messages hold valid values that can be sent on", "statement": "Whenever a generated decoder returns TRUE, the value satisfies the constraints of the type, and encoding it again succeeds and gives a message that decodes to the same value.", "quantifier": "every type of unbounded nesting, every input the decoder accepts", "why_tests_cant": "Ranges over all inputs, including those no encoder produces.", "anchors": ["StgC/uper_c.stg:76-96", "StgC/isvalid_c.stg"]}
{"id": "C49", "title": "The generated validity check of an INTEGER decides its constraints", "statement": "The generated IsConstraintValid function of an INTEGER type returns TRUE for exactly those values of its C type that satisfy the constraints of the type, and the C type holds every value of the computed range.", "quantifier": "every constraint expression, every value of the C type", "why_tests_cant": "Infinite expression trees; all 64 bit values; literals get a C type of their own.", "anchors": ["BackendAst/DAstValidate2.fs", "StgC/isvalid_c.stg", "BackendAst/DAstTypeDefinition.fs:createInteger"]}
{"id": "C50", "title": "The effective alphabet of a string type is right", "statement": "The permitted alphabet the compiler computes from the constraints of a character string contains every character of every string that satisfies them, in increasing order without repetition.", "quantifier": "every constraint expression and every string", "why_tests_cant": "Infinite expression trees and strings.", "anchors": ["FrontEndAst/uPER.fs:getSrtingAlphaUperRange", "CommonTypes/FsUtils.fs"]}
{"id": "C51", "title": "Accepted BER messages mean what the decoder reports", "statement": "When a BER decoder returns TRUE, the octets it consumed are identifier octets of the tag, length octets and contents octets of exactly this length, and the value it reports is the one the contents octets denote.", "quantifier": "every buffer, every tag, every accepted message", "why_tests_cant": "Ranges over all inputs, including malformed ones no encoder produces.", "anchors": ["asn1crt/asn1crt_encoding_ber.c:BerDecodeLength", "asn1crt/asn1crt_encoding_ber.c:BerDecodeInteger", "asn1crt/asn1crt_encoding_ber.c:BerDecodeOctetString", "asn1crt/asn1crt_encoding_ber.c:BerDecodeBitString"]}
{"id": "C52", "title": "Contained types with deferred lengths round-trip", "statement": "With --acn-deferred, an OCTET STRING or BIT STRING (CONTAINING T) whose length is a determinant or an embedded length encodes to the bits of T preceded by their number of octets or bits, and decoding gives the value of T back and continues with the next field.", "quantifier": "every contained type with a round trip, every determinant kind, every alignment", "why_tests_cant": "Alignment, contents size and position of the determinant are unbounded and interact.", "anchors": ["StgC/acn_c.stg:octet_string_containing_deferred_func_encode", "StgC/acn_c.stg:bit_string_containing_deferred_func_decode", "StgC/acn_c.stg:bit_string_containing_deferred_embedded_func_encode", "asn1crt/asn1crt_encoding_acn.h:Acn_BitStream_DistanceInBytes"]}
{"id": "C53", "title": "Decoding a contained type never reads outside the message", "statement": "With --acn-deferred, decoding an OCTET STRING or BIT STRING (CONTAINING T) with any received length never reads outside the buffer.", "quantifier": "every message, every length value received", "why_tests_cant": "The length comes from the sender; all values matter.", "anchors": ["StgC/acn_c.stg:octet_string_containing_deferred_func_decode", "StgC/acn_c.stg:bit_string_containing_deferred_func_decode"]}
{"id": "C54", "title": "Determinants that nothing refers to get a decodable default", "statement": "With --acn-deferred, a determinant that no encoded field refers to is given a value that the decoder accepts and that lies in its declared range.", "quantifier": "every range, every position", "why_tests_cant": "Ranges and positions are unbounded.", "anchors": ["StgC/LangGeneric_c.fs:computeDeferredFallbackValue", "StgC/acn_c.stg:acn_deferred_det_fallback_value_with_size_encode"]}
{"id": "C55", "title": "The contents octets of a REAL denote the value", "statement": "For every finite double other than zero the encoder writes a length octet, an information octet, exponent octets and mantissa octets that, read as X.690 8.5.7 prescribes, denote exactly the value.", "quantifier": "every finite nonzero double", "why_tests_cant": "2^64 bit patterns; extreme exponents are not tested.", "anchors": ["asn1crt/asn1crt_encoding.c:BitStream_EncodeReal", "asn1crt/asn1crt_encoding.c:CalculateMantissaAndExponent"]}
{"id": "C56", "title": "REAL encodings are canonical", "statement": "The octets written for a REAL have base 2, scale factor zero, an odd mantissa, and the shortest exponent and mantissa (X.690 11.3.1), as the packed encoding rules demand.", "quantifier": "every finite nonzero double", "why_tests_cant": "Whether the mantissa is odd depends on all 52 bits of the fraction.", "anchors": ["asn1crt/asn1crt_encoding.c:BitStream_EncodeReal", "asn1crt/asn1crt_encoding.c:CalculateMantissaAndExponent"]}
{"id": "C57", "title": "REAL encodings of other implementations decode to their value", "statement": "Any binary REAL encoding X.690 8.5.7 allows, with base 2, 8 or 16, any scale factor, and a value that a double can hold, decodes to exactly this value.", "quantifier": "every base, scale factor, exponent and mantissa, in the forms the standard allows", "why_tests_cant": "The project's own encoder writes only one of these forms, so round trip tests never reach the others.", "anchors": ["asn1crt/asn1crt_encoding.c:BitStream_DecodeReal", "asn1crt/asn1crt_encoding.c:DecodeRealAsBinaryEncoding", "asn1crt/asn1crt_encoding.c:GetDoubleByMantissaAndExp"]}
{"id": "C58", "title": "The REAL decoder is safe on hostile input", "statement": "Decoding a REAL from any bytes neither reads outside the buffer nor performs undefined arithmetic, and ends with the cursor inside the buffer when it reports success.", "quantifier": "every buffer, every position", "why_tests_cant": "Length and exponent octets come from the sender; all combinations matter.", "anchors": ["asn1crt/asn1crt_encoding.c:BitStream_DecodeReal", "asn1crt/asn1crt_encoding.c:DecodeRealAsBinaryEncoding"]}
{"id": "C59", "title": "Equality of REAL values is an equivalence relation", "statement": "Asn1Real_Equal, which the generated validity tests and test cases rely on, is reflexive, symmetric and transitive.", "quantifier": "every pair and triple of doubles", "why_tests_cant": "Rounding makes tolerance comparisons fail only for chosen triples.", "anchors": ["asn1crt/asn1crt.c:Asn1Real_Equal"]}
{"id": "C60", "title": "The effective range is no wider than the constraints demand", "statement": "The range that the compiler computes for an INTEGER whose constraints are ranges, intersections and constraints applied in series contains exactly the values that satisfy the constraints, so that the field has the width X.691 prescribes.", "quantifier": "every list of constraint expressions of any depth", "why_tests_cant": "Infinite expression trees; a range that is too wide still round-trips.", "anchors": ["CommonTypes/CommonTypes.fs:uperIntersection", "FrontEndAst/uPER.fs:getIntTypeConstraintUperRange"]}
{"id": "C61", "title": "Looking ahead in a BER stream answers correctly and consumes nothing", "statement": "NextTagMatches and LA_Next_Two_Bytes_00 say whether the identifier octets of the tag, or two zero octets, come next, and leave the stream as it was.", "quantifier": "every buffer, position and tag", "why_tests_cant": "Ranges over all buffers, including those that end in the middle of the tag.", "anchors": ["asn1crt/asn1crt_encoding_ber.c:NextTagMatches", "asn1crt/asn1crt_encoding_ber.c:LA_Next_Two_Bytes_00"]}
{"id": "C62", "title": "Streaming mode reads the same values", "statement": "A decoder compiled with streaming support, fed through fetchData with a buffer of any size, returns for every message what the decoder returns that has the whole message in one buffer.", "quantifier": "every buffer size, every message, every sequence of decoding calls", "why_tests_cant": "What matters is where buffer boundaries fall inside fields; all alignments and sizes are too many to test, and the test suites run without streaming.", "anchors": ["asn1crt/asn1crt_encoding.c:BitStream_AttachBuffer2", "asn1crt/asn1crt_encoding.c:fetchDataIfRequired", "asn1crt/asn1crt_encoding.c:BitStream_ReadByte", "asn1crt/asn1crt_encoding.c:BitStream_DecodeOctetString_no_length"]}
{"id": "C63", "title": "XER values round-trip", "statement": "Whatever an XER encoder (NULL, INTEGER, BOOLEAN, ENUMERATED, strings, OCTET and BIT STRING, OBJECT IDENTIFIER) writes, the decoder with the same tag reads back as the same value, with or without indentation, and continues behind the element.", "quantifier": "every value, tag, indentation level, buffer position and following text", "why_tests_cant": "Texts are unbounded; characters that are special in XML and sizes near those of internal arrays are rarely tested.", "anchors": ["asn1crt/asn1crt_encoding_xer.c:Xer_EncodePrimitiveElement", "asn1crt/asn1crt_encoding_xer.c:Xer_DecodePrimitiveElement", "asn1crt/asn1crt_encoding_xer.c:Xer_DecodeOctetString", "asn1crt/asn1crt_encoding_xer.c:Xer_DecodeBitString", "asn1crt/asn1crt_encoding_xer.c:Xer_DecodeObjectIdentifier"]}
{"id": "C64", "title": "XER decoders are safe on hostile input", "statement": "Given any text, an XER decoder ends, reads nothing outside the buffer, writes nothing outside the caller's variable, and has no undefined behaviour.", "quantifier": "every text, tag and destination size", "why_tests_cant": "The text comes from the sender: truncated comments, attributes, long names and numbers can be combined without limit.", "anchors": ["asn1crt/asn1crt_encoding_xer.c:NT", "asn1crt/asn1crt_encoding_xer.c:Xer_DecodeAttributes", "asn1crt/asn1crt_encoding_xer.c:Xer_DecodeInteger", "asn1crt/asn1crt_encoding_xer.c:Xer_DecodeBitString", "asn1crt/asn1crt_encoding_xer.c:Xer_LA_NextElementTag"]}
{"id": "C65", "title": "XER encoders write the element and stay inside the buffer", "statement": "An XER encoder that returns TRUE has appended exactly the element X.693 prescribes for the value (with indentation if asked for); it returns TRUE whenever there is room; otherwise it returns FALSE; it never writes outside the buffer.", "quantifier": "every value, tag, level and buffer size", "why_tests_cant": "All buffer sizes around the end of each token matter.", "anchors": ["asn1crt/asn1crt_encoding_xer.c:ByteStream_AppendString", "asn1crt/asn1crt_encoding_xer.c:Xer_EncodePrimitiveElement", "asn1crt/asn1crt_encoding_xer.c:Xer_EncodeEnumerated", "asn1crt/asn1crt_encoding_xer.c:Xer_EncodeXmlHeader"]}
{"id": "C66", "title": "XER decoders accept only what denotes the value they return", "statement": "If an XER decoder returns TRUE, the text began with an element with the expected tag whose contents denote the returned value.", "quantifier": "every text", "why_tests_cant": "Negative tests cover only a few malformed documents.", "anchors": ["asn1crt/asn1crt_encoding_xer.c:Xer_DecodePrimitiveElement", "asn1crt/asn1crt_encoding_xer.c:Xer_DecodeInteger", "asn1crt/asn1crt_encoding_xer.c:Xer_DecodeNull", "asn1crt/asn1crt_encoding_xer.c:Xer_DecodeOctetString", "asn1crt/asn1crt_encoding_xer.c:Xer_DecodeBitString"]}
{"id": "C67", "title": "Generated XER codecs round-trip", "statement": "For a type of any nesting, what <Type>_XER_Encode writes for a value is read back by <Type>_XER_Decode as TRUE and the same value, whatever the destination held and whatever follows.", "quantifier": "every type of unbounded nesting, every value of it, every buffer position and following text, with and without white space", "why_tests_cant": "Infinitely many types and values; the generated code is composed from templates, and a test exercises one composition at a time.", "anchors": ["StgC/xer_c.stg:EmitTypeAssignment_encode", "StgC/xer_c.stg:EmitTypeAssignment_decode", "BackendAst/DAstXer.fs:createSequenceFunction", "BackendAst/DAstXer.fs:createChoiceFunction"]}
{"id": "C68", "title": "The announced XER size is enough", "statement": "With a buffer of <Type>_REQUIRED_BYTES_FOR_XER_ENCODING octets, <Type>_XER_Encode succeeds for every value of the type.", "quantifier": "every type and value", "why_tests_cant": "The constant is a worst case over all values; tests encode few values and rarely the longest text.", "anchors": ["BackendAst/DAstXer.fs:getMaxSizeInBytesForXER", "StgC/xer_c.stg:EmitTypeAssignment_def_encode"]}
{"id": "C69", "title": "Generated XER decoders return TRUE only with a value of the type", "statement": "If <Type>_XER_Decode returns TRUE, the destination holds a value of the type: ranges and sizes are met, mandatory components are there, and nothing is left from before the call.", "quantifier": "every type and every text", "why_tests_cant": "Ranges over all malformed documents and all contents of the destination before the call.", "anchors": ["StgC/xer_c.stg:EmitTypeAssignment_encode", "StgC/xer_c.stg:EmitTypeAssignment_decode", "BackendAst/DAstXer.fs:createSequenceFunction", "BackendAst/DAstXer.fs:createChoiceFunction"]}
{"id": "C70", "title": "Generated XER decoders are safe on hostile input", "statement": "Given any text, <Type>_XER_Decode ends, reads nothing outside the buffer, writes nothing outside the destination and has no undefined behaviour.", "quantifier": "every type and every text", "why_tests_cant": "The text comes from the sender; types nest without limit.", "anchors": ["StgC/xer_c.stg:EmitTypeAssignment_encode", "StgC/xer_c.stg:EmitTypeAssignment_decode", "BackendAst/DAstXer.fs:createSequenceFunction", "BackendAst/DAstXer.fs:createChoiceFunction"]}
{"id": "C71", "title": "Generated ACN codecs round-trip", "statement": "For a type of any nesting with an ACN specification, <Type>_ACN_Encode writes the bits that the specification describes, from any bit position on, and <Type>_ACN_Decode reads them back as TRUE and the same value, whatever follows.", "quantifier": "every type of unbounded nesting, every combination of encoding properties, determinants and alignments, every value, every start position", "why_tests_cant": "Encoding properties, nesting, determinants and alignment combine without limit; a test fixes one specification, one value and one start position.", "anchors": ["StgC/acn_c.stg:EmitTypeAssignment_primitive_encode", "StgC/acn_c.stg:EmitTypeAssignment_primitive_decode", "BackendAst/Acn/AcnSequence.fs:createSequenceFunction_inline", "BackendAst/Acn/AcnChoice.fs:createChoiceFunction", "BackendAst/Acn/AcnDependencies.fs:getUpdateFunctionUsedInEncoding"]}
{"id": "C72", "title": "Determinants agree with what they describe", "statement": "Each inserted determinant is sent with the value that the components that depend on it require; if two of them disagree the encoder returns FALSE; a value that satisfies the constraints and whose components agree is encoded.", "quantifier": "every type, every set of determinants and dependents, every value", "why_tests_cant": "Any number of components may share a determinant, through parameters of any number of levels; tests use one dependent at a time.", "anchors": ["StgC/acn_c.stg:EmitTypeAssignment_primitive_encode", "StgC/acn_c.stg:EmitTypeAssignment_primitive_decode", "BackendAst/Acn/AcnSequence.fs:createSequenceFunction_inline", "BackendAst/Acn/AcnChoice.fs:createChoiceFunction", "BackendAst/Acn/AcnDependencies.fs:getUpdateFunctionUsedInEncoding"]}
{"id": "C76", "title": "ACN encodings are unambiguous", "statement": "At any bit position no encoding of a value is a prefix of the encoding of another value of the type: the message tells where it ends.", "quantifier": "every type, all pairs of values, every position", "why_tests_cant": "A statement about all pairs of values.", "anchors": ["StgC/acn_c.stg:EmitTypeAssignment_primitive_encode", "StgC/acn_c.stg:EmitTypeAssignment_primitive_decode", "BackendAst/Acn/AcnSequence.fs:createSequenceFunction_inline", "BackendAst/Acn/AcnChoice.fs:createChoiceFunction", "BackendAst/Acn/AcnDependencies.fs:getUpdateFunctionUsedInEncoding"]}
{"id": "C77", "title": "Generated ACN decoders refuse truncated messages", "statement": "If the input ends before the encoding of a value is complete, <Type>_ACN_Decode returns FALSE.", "quantifier": "every type, every value, every place to cut", "why_tests_cant": "Every prefix of every message of every type.", "anchors": ["StgC/acn_c.stg:EmitTypeAssignment_primitive_encode", "StgC/acn_c.stg:EmitTypeAssignment_primitive_decode", "BackendAst/Acn/AcnSequence.fs:createSequenceFunction_inline", "BackendAst/Acn/AcnChoice.fs:createChoiceFunction", "BackendAst/Acn/AcnDependencies.fs:getUpdateFunctionUsedInEncoding"]}
{"id": "C73", "title": "Generated ACN decoders are safe on hostile input", "statement": "Given any input bits, <Type>_ACN_Decode ends without undefined behaviour and without a failed assertion, reads nothing outside the buffer, writes nothing outside the destination, and leaves the cursor inside when it accepts.", "quantifier": "every type with its ACN specification, of unbounded nesting, and every input", "why_tests_cant": "The lengths, flags and selectors come from the sender and steer the decoder; types nest without limit.", "anchors": ["StgC/acn_c.stg:EmitTypeAssignment_primitive_encode", "StgC/acn_c.stg:EmitTypeAssignment_primitive_decode", "BackendAst/Acn/AcnSequence.fs:createSequenceFunction_inline", "BackendAst/Acn/AcnChoice.fs:createChoiceFunction", "BackendAst/Acn/AcnDependencies.fs:getUpdateFunctionUsedInEncoding", "BackendAst/Acn/AcnOctetBitStrings.fs:createOctetStringFunction", "StgC/acn_c.stg:oct_external_field_decode", "StgC/acn_c.stg:bit_string_external_field_decode"]}
{"id": "C75", "title": "What a generated ACN decoder accepts satisfies the ASN.1 constraints", "statement": "Whenever <Type>_ACN_Decode returns TRUE, the value it has stored satisfies every constraint of the ASN.1 type: ranges, sizes, alphabets, permitted enumerated values, presence, at every depth.", "quantifier": "every type with its ACN specification, of unbounded nesting, and every input", "why_tests_cant": "Ranges over all inputs, including those no encoder produces; determinants say something about components elsewhere in the message.", "anchors": ["StgC/acn_c.stg:EmitTypeAssignment_primitive_encode", "StgC/acn_c.stg:EmitTypeAssignment_primitive_decode", "BackendAst/Acn/AcnSequence.fs:createSequenceFunction_inline", "BackendAst/Acn/AcnChoice.fs:createChoiceFunction", "BackendAst/Acn/AcnDependencies.fs:getUpdateFunctionUsedInEncoding", "BackendAst/Acn/AcnFunctionWrapper.fs:createAcnFunction", "StgC/acn_c.stg:EmitTypeAssignment_primitive", "StgC/isvalid_c.stg"]}
{"id": "C78", "title": "What a generated ACN decoder accepts can be sent on", "statement": "Whenever <Type>_ACN_Decode returns TRUE, <Type>_ACN_Encode encodes the value it has stored, and what it writes decodes to the same value: a relay never gets stuck on a message it has accepted.", "quantifier": "every type with its ACN specification, of unbounded nesting, and every input the decoder accepts", "why_tests_cant": "The determinants in the message came from someone else and are computed anew; whether they agree for all accepted messages cannot be tested.", "anchors": ["StgC/acn_c.stg:EmitTypeAssignment_primitive_encode", "StgC/acn_c.stg:EmitTypeAssignment_primitive_decode", "BackendAst/Acn/AcnSequence.fs:createSequenceFunction_inline", "BackendAst/Acn/AcnChoice.fs:createChoiceFunction", "BackendAst/Acn/AcnDependencies.fs:getUpdateFunctionUsedInEncoding", "BackendAst/Acn/AcnDependencies.fs:getUpdateFunctionUsedInEncoding"]}
{"id": "C74", "title": "The announced ACN sizes are right", "statement": "A buffer of <Type>_REQUIRED_BYTES_FOR_ACN_ENCODING octets suffices for the ACN encoding of every value of the type, padding and inserted fields included, and the decoder gives the value back from it; no encoding is shorter than the announced minimum.", "quantifier": "every type with its ACN specification, of unbounded nesting, every value, every start position", "why_tests_cant": "The largest encoding is a maximum over all values and positions of a type; the sizes are computed by a compiler pass of its own, apart from the code that writes the bits.", "anchors": ["FrontEndAst/AcnEncodingClasses.fs:GetIntEncodingClass", "FrontEndAst/AcnEncodingClasses.fs:GetOctetBitSeqofEncodingClass", "FrontEndAst/AcnEncodingClasses.fs:GetStringEncodingClass", "FrontEndAst/AcnEncodingClasses.fs:GetChoiceEncodingClass", "FrontEndAst/AcnCreateFromAntlr.fs:acnMaxSizeInBits", "BackendAst/Acn/AcnFunctionWrapper.fs:nMaxBytesInACN"]}
{"id": "C79", "title": "The generated _Equal compares values", "statement": "<Type>_Equal(a, b) ends without undefined behaviour for all objects that hold values and returns TRUE exactly when the two values are the same; memory that does not belong to the value (elements behind the count, unused bits, characters behind the terminator, absent components) does not matter.", "quantifier": "every type, of unbounded nesting, and all pairs of objects that hold values", "why_tests_cant": "Ranges over all pairs of values and all contents of the memory that does not belong to them; types nest without limit.", "anchors": ["BackendAst/DAstEqual.fs", "StgC/equal_c.stg", "asn1crt/asn1crt.c:ObjectIdentifier_equal", "asn1crt/asn1crt.c:Asn1Real_Equal"]}
{"id": "C80", "title": "The generated _IsConstraintValid decides the constraints", "statement": "<Type>_IsConstraintValid(v, &err) ends without undefined behaviour for every object that holds a value and returns TRUE exactly when the value satisfies all constraints of the type, of the types it refers to, and of its components, elements and alternatives at every depth; if it returns FALSE, the error code is that of a type whose constraints the value does violate.", "quantifier": "every type with any combination of constraints (union, intersection, EXCEPT, ALL EXCEPT, extension markers, ranges, SIZE, FROM, single values, WITH COMPONENT, WITH COMPONENTS), of unbounded nesting, and every value", "why_tests_cant": "Constraints are expressions of unbounded depth that the compiler turns into code; the set of values is infinite. Encoders rely on this check.", "anchors": ["BackendAst/DastValidate2.fs", "StgC/isvalid_c.stg", "FrontEndAst/DAstUtilFunctions.fs:nestItems_ret"]}
{"id": "C81", "title": "_IsConstraintValid finds objects that hold no value", "statement": "<Type>_IsConstraintValid may be called for any object whose memory is initialised: also when a count exceeds its array or the selector of a CHOICE selects nothing, at any depth, it ends without undefined behaviour and returns FALSE.", "quantifier": "every type, of unbounded nesting, and every content of the object", "why_tests_cant": "Ranges over all contents of memory, including those no decoder produces, at every depth.", "anchors": ["BackendAst/DastValidate2.fs", "StgC/isvalid_c.stg", "StgC/header_c.stg"]}
{"id": "C82", "title": "_Initialize makes a valid value", "statement": "After <Type>_Initialize an object holds a value of the type that does not depend on what the memory held before and satisfies all constraints, so that <Type>_IsConstraintValid returns TRUE and two initialised objects are equal for <Type>_Equal; nothing outside the object is stored to.", "quantifier": "every type with satisfiable constraints, of unbounded nesting, and every previous content of the memory", "why_tests_cant": "Ranges over all constraint expressions (the initial value is chosen by the compiler from their bounds), all nestings of types and all contents of memory.", "anchors": ["BackendAst/DAstInitialize.fs", "BackendAst/EncodeDecodeTestCase.fs", "FrontEndAst/Asn1Fold.fs", "StgC/init_c.stg"]}
{"id": "C83", "title": "Declared values are stored as declared", "statement": "The generated statements that store a declared value, such as the DEFAULT of a component, make the object denote exactly this value, whatever the memory held before.", "quantifier": "every type of unbounded nesting, every value of it, every previous content of the memory", "why_tests_cant": "Ranges over all values of all types.", "anchors": ["BackendAst/DAstInitialize.fs", "BackendAst/DAstVariables.fs", "StgC/init_c.stg", "StgC/variables_c.stg"]}
{"id": "C84", "title": "Generated headers declare before use", "statement": "In a generated header every type assignment of the file is defined once, and whatever a definition mentions, at any depth, is defined further up or comes from an imported file; the compiler reports cyclic types exactly if a type contains itself, and cyclic modules exactly if a module imports from itself, directly or through others.", "quantifier": "every set of files, modules and type assignments, of unbounded number, with types of unbounded nesting", "why_tests_cant": "The order must be right for all dependency graphs, and the report of a cycle for all cyclic ones: no set of example grammars settles this.", "anchors": ["CommonTypes/FsUtils.fs:DoTopologicalSort", "BackendAst/DAstProgramUnit.fs:sortTypes", "FrontEndAst/CheckAsn1.fs:checkForCyclicModules"]}
{"id": "C85", "title": "Generated headers do not include each other in a circle", "statement": "If the compiler accepts a set of files, no generated header includes itself, directly or through other headers.", "quantifier": "every set of files with any number of modules and imports", "why_tests_cant": "Ranges over all import graphs.", "anchors": ["BackendAst/DAstProgramUnit.fs", "FrontEndAst/CheckAsn1.fs:checkForCyclicModules", "StgC/header_c.stg"]}
{"id": "C86", "title": "ACN properties of INTEGER that the compiler accepts can be encoded", "statement": "If the compiler accepts the ACN properties (encoding, size, endianness, termination-pattern) of an INTEGER type, every value of the type that its C type can hold is encoded and decoded back; and it rejects no combination for lack of space that has room for all values.", "quantifier": "every range, every combination of properties, every value", "why_tests_cant": "The check compares bounds that are computed from the size and the encoding; whether it is exact ranges over all ranges and sizes.", "anchors": ["FrontEndAst/AcnEncodingClasses.fs:GetIntEncodingClass", "FrontEndAst/AcnCreateFromAntlr.fs:checkIntHasEnoughSpace", "FrontEndAst/AcnCreateFromAntlr.fs:mergeInteger", "FrontEndAst/AcnCreateFromAntlr.fs:getIntSizeProperty"]}
{"id": "C87", "title": "Items of ENUMERATED are numbered as X.680 says and travel without loss", "statement": "Items of an ENUMERATED keep the numbers given to them, the others get the least free non-negative numbers in their order, and no two items have the same number; whatever ACN properties the compiler accepts, every item is encoded with the declared number (its place, its number, or the number in the ACN specification) and decoded back.", "quantifier": "every list of items with and without numbers, every combination of properties, every item", "why_tests_cant": "Ranges over all lists of items: the numbers that are given determine those that are not.", "anchors": ["FrontEndAst/AcnCreateFromAntlr.fs:mergeEnumerated", "FrontEndAst/AcnEncodingClasses.fs:GetEnumeratedEncodingClass", "FrontEndAst/CheckAsn1.fs:551"]}
{"id": "C88", "title": "Presence expressions read in C as they read in ACN", "statement": "The text of the condition that is generated for a `present-when` expression is a C expression, C can read it in one way only, and this is the expression of the ACN file with its parentheses and operators; every reference of an accepted expression becomes the component that it names.", "quantifier": "every expression of unbounded depth, every SEQUENCE with components of unbounded nesting, every path", "why_tests_cant": "Whether parentheses are needed depends on the operators of all levels: tests cover a few combinations of operators, not all trees.", "anchors": ["BackendAst/Acn/AcnExpression.fs:acnExpressionToBackendExpression", "FrontEndAst/CheckLongReferences.fs:358", "CommonTypes/AcnGenericTypes.fs:validateAcnExpression"]}
{"id": "C89", "title": "Presence expressions compute in C what they say in ACN", "statement": "For every value of the components, the encoder accepts a value exactly if the optional component is there when the `present-when` expression is true, and the decoder takes the component for present exactly if the expression is true; a value that the encoder accepts is decoded with the same components.", "quantifier": "every expression of unbounded depth, every value of the components it mentions", "why_tests_cant": "C computes in types of 32 and 64 bits, signed and unsigned, with conversions between them; whether this changes the value ranges over all expressions and values.", "anchors": ["BackendAst/Acn/AcnExpression.fs", "BackendAst/Acn/AcnSequence.fs:143", "StgC/acn_c.stg:sequence_presence_optChild_pres_acn_expression_encode"]}
{"id": "C90", "title": "XER decoders read any layout", "statement": "However the tags and the innermost elements of the XML text of a value are laid out, with any amount of white space of any kind before, between and behind them, the generated decoder returns TRUE and this value; what the encoder writes, with or without white space, is one of these layouts.", "quantifier": "every type of unbounded nesting, every value, every layout", "why_tests_cant": "Ranges over all ways to place white space in all texts of all values.", "anchors": ["BackendAst/DAstXer.fs", "StgC/xer_c.stg", "asn1crt/asn1crt_encoding_xer.c"]}
{"id": "C91", "title": "LoadXmlFile loads what the file says", "statement": "LoadXmlFile of an XML file with a declaration, comments and white space around the text of a value returns TRUE, leaves in the buffer the same tags and texts in the same order, and the decoder returns the value; whatever a file contains, nothing is written behind the end of the buffer and the function returns.", "quantifier": "every value of every type of unbounded nesting, every layout, every placement of comments; for safety every file", "why_tests_cant": "The loader is a state machine over the characters; which text it keeps or drops ranges over all files.", "anchors": ["asn1crt/asn1crt_encoding_xer.c:LoadXmlFile", "asn1crt/asn1crt_encoding_xer.c:OnXmlContent", "asn1crt/asn1crt_encoding_xer.c:OnXmlComment"]}
{"id": "C92", "title": "C types get different names", "statement": "The names of the generated C types are pairwise different over all modules, are C identifiers and no keywords, and are chosen in finitely many steps; types whose names differ keep their names, with hyphens as underscores. The names of generated functions differ from each other and from the names of types.", "quantifier": "every set of modules with any number of types, every type prefix", "why_tests_cant": "Whether renaming one type hits another name ranges over all sets of names.", "anchors": ["FrontEndAst/FE_TypeDefinition.fs:reserveTypeDefinitionName", "FrontEndAst/AcnCreateFromAntlr.fs:mergeAsn1WithAcnAst", "StgC/LangGeneric_c.fs", "CommonTypes/CommonTypes.fs:c_keywords"]}
{"id": "C93", "title": "Enumerants get different names", "statement": "The names of enumerants in C are pairwise different over all types of all modules, no keywords, different from names of values, and end in the ASN.1 name; names that are different from the start are kept; the compiler always finishes the renaming.", "quantifier": "every set of enumerated types at any depth in any number of modules, every set of value assignments", "why_tests_cant": "Renaming may produce new duplicates and is repeated; whether it ends, and with different names, ranges over all sets of names.", "anchors": ["FrontEndAst/EnsureUniqueEnumNames.fs:handleEnums", "CommonTypes/FsUtils.fs:keepDuplicates", "FrontEndAst/CloneTree.fs"]}
{"id": "C94", "title": "What passes the check is encoded, and decoded into an equal object", "statement": "For an object that <type>_IsConstraintValid accepts, <type>_Encode succeeds; <type>_Decode of these bits succeeds into any object, whatever its memory held, and the result is accepted by <type>_IsConstraintValid and is equal to the original by <type>_Equal. A buffer of REQUIRED_BYTES_FOR_ENCODING octets is enough. The bits do not depend on unused memory, and differ for different values. An object that violates a constraint is refused with the error code of a violated type and nothing is written. Initialised objects can be encoded.", "quantifier": "every type of unbounded nesting whose sizes, ranges and alphabets are those computed from its constraints, every object, every buffer", "why_tests_cant": "The functions are generated by separate parts of the compiler from the constraints; that they agree ranges over all types and all objects.", "anchors": ["StgC/uper_c.stg", "BackendAst/DAstUPer.fs", "BackendAst/DAstValidate2.fs", "BackendAst/DAstEqual.fs", "FrontEndAst/uPER.fs", "BackendAst/DAstInitialize.fs"]}
{"id": "C95", "title": "Values mean what they say", "statement": "What the compiler accepts as a value of a type (in a DEFAULT, a value assignment, a constraint) is translated into the value that X.680 says the notation denotes, in types of any nesting, with names of items and of value assignments resolved, components in any order, integers for REAL, and hexadecimal and binary literals for BIT STRING and OCTET STRING; every notation that denotes a value of the type is accepted.", "quantifier": "every type and every value notation of unbounded nesting, with chains of references of any length", "why_tests_cant": "Ranges over all values of all types; a wrong translation goes unnoticed unless that kind of value is in a test grammar.", "anchors": ["FrontEndAst/CheckAsn1.fs:TypeValueMatch", "FrontEndAst/ValuesMapping.fs:mapValue", "FrontEndAst/CreateAsn1AstFromAntlrTree.fs:259", "CommonTypes/FsUtils.fs:byteArrayToBitStringValue"]}
{"id": "C96", "title": "Constraints mean what they say", "statement": "The constraint that the compiler works with (for generated checks, sizes and codecs) admits exactly the values that the notation in the ASN.1 file admits, whatever unions, intersections, exceptions, sizes, alphabets and inner constraints it is made of and whatever values it refers to.", "quantifier": "every type, every constraint of unbounded nesting, every value", "why_tests_cant": "Whether a constraint admits a value ranges over all constraints and all values.", "anchors": ["FrontEndAst/ConstraintsMapping.fs:getAnyConstraint", "FrontEndAst/ConstraintsMapping.fs:getRangeTypeConstraint", "FrontEndAst/ConstraintsMapping.fs:46-165"]}
{"id": "C97", "title": "DEFAULT values are accepted exactly if they satisfy the type", "statement": "The compiler accepts a DEFAULT value, or the value of a value assignment, exactly if it denotes a value of the type that satisfies all constraints of the type, of its components and of the types it refers to.", "quantifier": "every type with constraints of unbounded nesting, every value notation", "why_tests_cant": "Tests show some defaults accepted and some refused; an invalid default that is accepted ends up in decoded messages.", "anchors": ["FrontEndAst/CheckAsn1.fs:IsValueAllowed", "FrontEndAst/CheckAsn1.fs:CheckIfVariableViolatesTypeConstraints", "FrontEndAst/CheckAsn1.fs:AreAsn1ValuesEqual", "FrontEndAst/CheckAsn1.fs:CompareAsn1Value"]}
{"id": "C98", "title": "Constants are the values that were assigned", "statement": "The C constant that is generated for a value assignment of the ASN.1 file is accepted by the C compiler and denotes the assigned value; <type>_IsConstraintValid accepts it exactly if the value satisfies the constraints, <type>_Equal finds it equal to exactly the objects with that value, and its encoding decodes to that value.", "quantifier": "every type and every value of unbounded nesting", "why_tests_cant": "The initialiser depends on the kind, size and optionality of every part; tests compile the constants of their own grammars only.", "anchors": ["BackendAst/DAstVariables.fs:printValue", "BackendAst/DAstVariables.fs:convertStringValue2TargetLangStringLiteral", "StgC/variables_c.stg", "BackendAst/GenerateFiles.fs:printSourceFileValueAssignment", "StgC/LangGeneric_c.fs:intValueToString"]}
{"id": "C99", "title": "MIN..MAX and included types keep their meaning", "statement": "A constraint of the ASN.1 file that contains MIN..MAX, or includes other types (INCLUDES T, or T), admits the same values after the compiler has removed these parts, inside unions, intersections, exceptions, extensible constraints, sizes, alphabets and inner constraints; a constraint disappears only if it admits everything.", "quantifier": "every constraint of unbounded nesting, every type and value", "why_tests_cant": "Depends on the combination of operators around MIN..MAX or the included type; tests contain a few.", "anchors": ["FrontEndAst/CreateAsn1AstFromAntlrTree.fs:CreateConstraint", "FrontEndAst/AcnCreateFromAntlr.fs:fixConstraint", "FrontEndAst/Asn1Ast.fs:foldConstraint", "FrontEndAst/Asn1Ast.fs:GetActualTypeByNameAllConsIncluded"]}
{"id": "C100", "title": "The generated check and codec do what the ASN.1 text says", "statement": "Take a type as written in the ASN.1 file. The generated <type>_IsConstraintValid accepts a C object exactly if the value of the object satisfies the constraints of the text; every object with such a value is encoded by <type>_Encode, the announced buffer size is enough for it, and <type>_Decode gives the value back; objects with other values are refused; different values have different encodings. Sizes, alphabets, integer types and optional components are those the compiler computes from the text.", "quantifier": "every type of unbounded nesting with constraints of unbounded nesting, every C object", "why_tests_cant": "The chain goes through the whole compiler; a test checks one grammar with some values.", "anchors": ["FrontEndAst/AcnCreateFromAntlr.fs:mergeType", "FrontEndAst/ConstraintsMapping.fs:getAnyConstraint", "FrontEndAst/uPER.fs:getSizeMinAndMaxValue", "BackendAst/DastValidate2.fs", "BackendAst/DAstUPer.fs"]}
{"id": "C101", "title": "Instances of parameterized types have the values X.683 gives them", "statement": "When the ASN.1 file has parameterized types, every other type has after their removal exactly the values that X.683 gives it: those of the body of the parameterized type with each dummy reference standing for its actual parameter, in constraints, sizes, DEFAULT values, components, elements and inside instances within instances; no parameterized type and no actual parameter is left.", "quantifier": "every specification with any number of modules, types and parameters, instances nested without bound, every value", "why_tests_cant": "The copy depends on where a dummy reference stands and on the names around it; the test grammars contain a few instances.", "anchors": ["FrontEndAst/RemoveParameterizedTypes.fs:DoWork", "FrontEndAst/RemoveParameterizedTypes.fs:SpecializeRefType", "FrontEndAst/RemoveParameterizedTypes.fs:CloneType", "FrontEndAst/RemoveParameterizedTypes.fs:CloneConstraint", "FrontEndAst/CreateAsn1AstFromAntlrTree.fs:CreateType"]}
{"id": "C102", "title": "References to determinants mean what they say", "statement": "When the compiler accepts an ACN grammar, every path in size, present-when, determinant and actual parameters names exactly one parameter of an enclosing type or one inserted field, of the kind needed and able to hold the needed values; the code generator is told of exactly these dependencies; a decoder has read the field, in the same element of a SEQUENCE OF, before it needs it; at most one alternative of a CHOICE has its present-when conditions satisfied; and a type inside another one means the same determinants as on its own.", "quantifier": "every type of unbounded nesting, every reference in it, every run of a decoder", "why_tests_cant": "Which field a path means depends on all types around it; a wrong resolution shows only in grammars with the same names at several levels.", "anchors": ["FrontEndAst/CheckLongReferences.fs:checkType", "FrontEndAst/CheckLongReferences.fs:checkRelativePath", "FrontEndAst/CheckLongReferences.fs:checkParamIsActuallyInteger", "FrontEndAst/CheckLongReferences.fs:addAcnChild", "FrontEndAst/CheckLongReferences.fs:sizeReference", "FrontEndAst/CheckLongReferences.fs:checkChoicePresentWhen", "FrontEndAst/CheckLongReferences.fs:choiceEnumReference"]}
{"id": "C103", "title": "The compiler accepts the legal types and can translate what it accepts", "statement": "A type of the ASN.1 file passes the semantic check and is translated only if every constraint in it is one that X.680 allows on that type, with values of that type, names and numbers are different, and every DEFAULT satisfies its type; legal types pass the check; a constraint that is legal is translated into one that admits the same values. For every type that passes the check, the generated check and codec follow the constraints of the text.", "quantifier": "every type of unbounded nesting with constraints of unbounded nesting", "why_tests_cant": "Tests show some illegal grammars refused and some legal ones accepted; which constraint goes with which type ranges over all combinations.", "anchors": ["FrontEndAst/CheckAsn1.fs:isConstraintValid", "FrontEndAst/CheckAsn1.fs:CheckType", "FrontEndAst/ConstraintsMapping.fs:getAnyConstraint", "FrontEndAst/AcnCreateFromAntlr.fs:mergeType"]}
{"id": "C104", "title": "A name means the assignment that X.680 says, in whichever module it is", "statement": "In ASN.1 files that the compiler accepts, every reference to a type or value leads to the assignment that it means: the one of its own module, the one of the module from which its name is imported, or the one of the module written in front of it. Every reference and import means exactly one assignment, which its module exports. Following references ends, and the type that is built is the one that the text describes. Modules whose headers a generated file needs are among its imports. Legal modules within the supported subset are accepted, and no others.", "quantifier": "any number of modules, imports, exports and assignments, types of unbounded nesting", "why_tests_cant": "Depends on the names in all modules together; test grammars have one or two modules without equal names.", "anchors": ["FrontEndAst/CreateAsn1AstFromAntlrTree.fs:CreateRefTypeContent", "FrontEndAst/CreateAsn1AstFromAntlrTree.fs:CreateAsn1Module", "FrontEndAst/CreateAsn1AstFromAntlrTree.fs:rootCheckCyclicDeps", "FrontEndAst/Asn1Ast.fs:GetTypeAssignmentByName", "FrontEndAst/Asn1Ast.fs:GetValueAsigByName", "FrontEndAst/CheckAsn1.fs:CheckModule", "FrontEndAst/CheckAsn1.fs:CheckFiles", "FrontEndAst/RemoveParameterizedTypes.fs:SpecializeType"]}
{"id": "C105", "title": "The automatic test cases are values of the type, reach its edges and pass", "statement": "Every test case that the compiler generates for a type with -atc stores a value of the type, inside its object; the constraint check accepts it; and the generated test function, which encodes it, decodes it, checks and compares it, returns TRUE with error code 0. Among the test cases are the values at the edges of the ranges of an INTEGER, all items of an ENUMERATED, both Booleans, the smallest and the largest size of strings, every tested value of a component, element or alternative inside the whole type, and every OPTIONAL component absent.", "quantifier": "every type of unbounded nesting, every generated test case, every content of the memory of the decoded object", "why_tests_cant": "The generated tests are themselves tests: a test case that is not a value, or a value that is never tried, shows only in grammars that nobody has tried.", "anchors": ["BackendAst/DAstInitialize.fs:createIntegerInitFunc", "BackendAst/DAstInitialize.fs:createSequenceInitFunc", "BackendAst/DAstInitialize.fs:createSequenceOfInitFunc", "BackendAst/DAstInitialize.fs:createChoiceInitFunc", "BackendAst/EncodeDecodeTestCase.fs:IntegerAutomaticTestCaseValues", "BackendAst/EncodeDecodeTestCase.fs:_createUperEncDecFunction", "StgC/init_c.stg:initTestCaseSizeSequenceOf", "StgC/test_cases_c.stg:PrintCodec_body"]}
{"id": "C106", "title": "COMPONENTS OF, named bits, string lists and names of values keep their meaning", "statement": "A SEQUENCE written with COMPONENTS OF gets exactly the components that X.680 says, in their order. A value assignment or DEFAULT value means after the front end has rewritten it what it means as it is written: a list of named bits sets exactly these bits, a list of strings and special characters is their concatenation, a name is the item of the ENUMERATED type or the value that is assigned to it, components and alternatives are those of the type. A grammar whose values mean something is accepted.", "quantifier": "every set of assignments in any number of modules, types and values of unbounded nesting, chains of COMPONENTS OF of any length", "why_tests_cant": "A default or a constant that changes on the way into the tree compiles and runs; it shows only when a peer disagrees about a value that was never sent.", "anchors": ["FrontEndAst/MapParamAstToNonParamAst.fs:getSequenceChildren", "FrontEndAst/MapParamAstToNonParamAst.fs:getActualKind", "FrontEndAst/MapParamAstToNonParamAst.fs:MapAsn1Value", "FrontEndAst/MapParamAstToNonParamAst.fs:MapAsn1Type", "FrontEndAst/MapParamAstToNonParamAst.fs:MapValueAssignment", "FrontEndAst/MapParamAstToNonParamAst.fs:DoWork"]}
{"id": "C107", "title": "OBJECT IDENTIFIER and RELATIVE-OID values stand for the numbers that X.680 and X.660 give them", "statement": "The numbers that the compiler puts in place of an OBJECT IDENTIFIER or RELATIVE-OID value are those that the value stands for: a number is itself, a name with a number in brackets is that number, a name with an INTEGER value in brackets is the value, a name of X.660 such as itu-t or recommendation is its number after the numbers before it, and the name of an OBJECT IDENTIFIER or RELATIVE-OID value stands for all numbers of that value. Values that stand for numbers are accepted.", "quantifier": "every value with any number of components, any set of value assignments, references of any depth", "why_tests_cant": "An identifier with a wrong number is a legal identifier of something else; only the registration authority's table tells the difference.", "anchors": ["FrontEndAst/CreateAsn1AstFromAntlrTree.fs:registeredObjectIdentifierKeywords", "FrontEndAst/CreateAsn1AstFromAntlrTree.fs:isRegisterObjIDKeyword2", "FrontEndAst/CreateAsn1AstFromAntlrTree.fs:CreateValue", "FrontEndAst/ValuesMapping.fs:mapValue", "FrontEndAst/Asn1Ast.fs:GetActualValue"]}
{"id": "C108", "title": "The literals of an ASN.1 file stand for the values that X.680 gives them", "statement": "A binary string stands for its bits and a hexadecimal string for the bits of its digits, whatever white space is between them; in the generated octets zeros follow up to the next octet and nothing else. A number stands for itself and is refused exactly if it does not fit the word size. A character string stands for its characters. A REAL given by mantissa, base and exponent becomes the double nearest to its value.", "quantifier": "texts of any length, every mantissa and exponent in the stated ranges, every power function that is exact where it can be", "why_tests_cant": "Literals are unbounded, and a constant that is off by the last bit or by a quotation mark looks right in a review and in a test that uses the same constant.", "anchors": ["FrontEndAst/CreateAsn1AstFromAntlrTree.fs:CreateValue", "CommonTypes/FsUtils.fs:BigInt", "CommonTypes/FsUtils.fs:getAsTupples", "CommonTypes/FsUtils.fs:bitStringValueToByteArray"]}
{"id": "C109", "title": "The enumerators for the alternatives of CHOICE types have different names", "statement": "The compiler gives every alternative of every CHOICE type of a specification a C enumerator of its own: no two have the same name, even if small and capital letters are not told apart, and none has the name of an item of an ENUMERATED type. Choosing the names comes to an end. Alternatives whose names are different from the start keep them.", "quantifier": "any number of CHOICE types in any number of modules, names of any length, any nesting", "why_tests_cant": "Names collide only between types that were written independently, and the search for names is a loop whose end depends on all of them.", "anchors": ["FrontEndAst/EnsureUniqueEnumNames.fs:handleEnumChoices", "CommonTypes/FsUtils.fs:keepDuplicatesCaseInsensitive", "FrontEndAst/DAstUtilFunctions.fs:presentWhenName", "FrontEndAst/MapParamAstToNonParamAst.fs:MapChildInfo"]}
{"id": "C110", "title": "A value range selects the values between its ends", "statement": "The constraint that the compiler makes of a value range of INTEGER selects exactly the values of the parent type from the lower to the upper end, without an end that has a <. MIN and MAX are the least and the greatest value of the parent type. A range with two numbers as ends is accepted exactly if an integer type of C holds both.", "quantifier": "every range, every parent type, every integer", "why_tests_cant": "A missing < changes the set by one value at one end, and the sizes of the encodings with it.", "anchors": ["FrontEndAst/CreateAsn1AstFromAntlrTree.fs:CreateConstraint", "FrontEndAst/CreateAsn1AstFromAntlrTree.fs:CheckValueRange"]}
{"id": "C111", "title": "A REAL that is kept in a C float is not changed on the way", "statement": "A REAL type whose C type is float (option -slim and the ACN encoding IEEE754-1985-32): what the uPER encoder writes for a float is read back as the same float, bit for bit. With the ACN encoding IEEE754-1985-32 the four octets are those of the float, in either byte order, and are read back as the same number. A number with more digits, from a peer or a program that uses double, becomes the nearest float. Truncated encodings are rejected.", "quantifier": "all 2^32 images of a float, all doubles in the stated ranges, every buffer and position", "why_tests_cant": "Four thousand million values per function, with subnormal numbers at one end and rounding in the last bit at the other.", "anchors": ["asn1crt/asn1crt_encoding.c:BitStream_DecodeReal_fp32", "asn1crt/asn1crt_encoding_acn.c:Acn_Enc_Real_IEEE754_32_big_endian", "asn1crt/asn1crt_encoding_acn.c:Acn_Dec_Real_IEEE754_32_big_endian", "asn1crt/asn1crt_encoding_acn.c:Acn_Enc_Real_IEEE754_32_little_endian", "asn1crt/asn1crt_encoding_acn.c:Acn_Dec_Real_IEEE754_32_little_endian", "BackendAst/DAstUPer.fs:createRealFunction"]}
{"id": "C112", "title": "With -fpWordSize 4 a REAL comes back unchanged", "statement": "In code compiled with FP_WORD_SIZE 4, where every REAL is a float, the uPER encoder writes at most 7 octets that stand for exactly the number, the decoder gives back the same float and rejects truncated encodings, and a peer whose REAL is a double reads the same number and is read correctly.", "quantifier": "all images of a float, every buffer and position", "why_tests_cant": "The second set of branches of the runtime is compiled only with an option that test builds do not use, and the loss begins far from the numbers that tests use.", "anchors": ["asn1crt/asn1crt_encoding.c:CalculateMantissaAndExponent", "asn1crt/asn1crt_encoding.c:GetDoubleByMantissaAndExp", "asn1crt/asn1crt_encoding.c:BitStream_EncodeReal", "asn1crt/asn1crt_encoding.c:BitStream_DecodeReal", "asn1crt/asn1crt_encoding.c:DecodeRealAsBinaryEncoding", "asn1crt/asn1crt.h:FP_WORD_SIZE"]}
{"id": "C113", "title": "The members of generated structs and unions have usable names", "statement": "A component or alternative gives a member of a C struct or union whose name is not a keyword of C: without -fp the compiler refuses keywords and keeps all other names, with -fp AUTO it puts the name of a type or component that it is in and an underscore in front of keywords and keeps all other names, with -fp and a prefix it puts that prefix in front of every name. In all cases the members of one struct have different names, and the compiler comes to an end.", "quantifier": "every list of components, every name and every nesting", "why_tests_cant": "Clashes come from combinations of names that the authors of a specification choose and that no list of samples covers.", "anchors": ["FrontEndAst/EnsureUniqueEnumNames.fs:handleSequencesAndChoices", "FrontEndAst/EnsureUniqueEnumNames.fs:DoWork", "FrontEndAst/CheckAsn1.fs:checkAgainstKeywords", "CommonTypes/CommonTypes.fs:c_keywords", "StgC/header_c.stg:Define_new_sequence"]}
