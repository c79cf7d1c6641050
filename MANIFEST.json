{
 "claims": [
  {
   "property": "C01",
   "status": "proved",
   "theorems": [
    "Asn1.C01_append_log"
   ],
   "note": ""
  },
  {
   "property": "C02",
   "status": "proved",
   "theorems": [
    "Asn1.C02_reads_replay",
    "Asn1.C02_chunking_independent"
   ],
   "note": ""
  },
  {
   "property": "C03",
   "status": "partial",
   "theorems": [
    "Asn1.C03_frame",
    "Asn1.C03_appendByteArray_one_partial",
    "Asn1.C03_violation_appendByteArray"
   ],
   "note": "Holds for every append except BitStream_AppendByteArray of one byte that ends exactly at the buffer end (witness)."
  },
  {
   "property": "C04",
   "status": "partial",
   "theorems": [
    "Asn1.C04_octets_full_partial",
    "Asn1.C04_appendByte0_full_partial",
    "Asn1.C04_violation_write_past_end",
    "Asn1.C04_violation_assert",
    "Asn1.C04_violation_nBitZero_wraps"
   ],
   "note": "Proved for the octet-string append and BitStream_AppendByte0; the other append functions do not report a full buffer (witnesses)."
  },
  {
   "property": "C05",
   "status": "partial",
   "theorems": [
    "Asn1.C05_violation_semi_overflow",
    "Asn1.C05_integer_decoders_safe_partial",
    "Asn1.C05_oid_decoders_safe",
    "Asn1.C05_reads_safe_partial",
    "Asn1.C05_violation_read_past_end",
    "Asn1.C05_violation_readByteArray"
   ],
   "note": "Every decoder is safe when one byte behind the input is readable; without it BitStream_ReadBit and others read one byte too far (witnesses). Signed semi-constrained decoding overflows on hostile input (witness)."
  },
  {
   "property": "C06",
   "status": "proved",
   "theorems": [
    "Asn1.C06_encoder_deterministic",
    "Asn1.C06_old_content_irrelevant",
    "Asn1.C06_violation_attach"
   ],
   "note": ""
  },
  {
   "property": "C07",
   "status": "partial",
   "theorems": [
    "Asn1.C07_constrained_roundtrip_partial",
    "Asn1.C07_constrained_truncated_partial",
    "Asn1.C07_violation_wide_range"
   ],
   "note": "All ranges of width below 2^63; wider ranges overflow a signed subtraction (witness)."
  },
  {
   "property": "C08",
   "status": "proved",
   "theorems": [
    "Asn1.C08_decoded_in_bounds",
    "Asn1.C08_decoded_pos_in_bounds",
    "Asn1.C08_pattern_above_range_rejected"
   ],
   "note": ""
  },
  {
   "property": "C09",
   "status": "proved",
   "theorems": [
    "Asn1.C09_pos_constrained_roundtrip",
    "Asn1.C09_pos_constrained_truncated"
   ],
   "note": ""
  },
  {
   "property": "C10",
   "status": "partial",
   "theorems": [
    "Asn1.C10_semi_roundtrip_partial",
    "Asn1.C10_semi_pos_roundtrip",
    "Asn1.C10_violation_overflow"
   ],
   "note": "Unsigned: complete. Signed: v - min below 2^63; beyond it the code overflows (witness)."
  },
  {
   "property": "C11",
   "status": "partial",
   "theorems": [
    "Asn1.C11_unconstrained_roundtrip_partial",
    "Asn1.C11_decode_min",
    "Asn1.C11_violation_min"
   ],
   "note": "All values but INT64_MIN, where the encoder overflows (witness)."
  },
  {
   "property": "C12",
   "status": "partial",
   "theorems": [
    "Asn1.C12_number_of_bits",
    "Asn1.C12_length_uint",
    "Asn1.C12_length_sint_partial",
    "Asn1.C12_violation_min"
   ],
   "note": "Signed length: all values but INT64_MIN (witness)."
  },
  {
   "property": "C13",
   "status": "partial",
   "theorems": [
    "Asn1.C13_int2uint_partial",
    "Asn1.C13_roundtrip_partial",
    "Asn1.C13_uint2int_reading",
    "Asn1.C13_violation_min"
   ],
   "note": "All values but INT64_MIN (witness)."
  },
  {
   "property": "C14",
   "status": "partial",
   "theorems": [
    "Asn1.C14_octet_encoding",
    "Asn1.C14_octet_roundtrip_partial",
    "Asn1.C14_violation_empty_fragmented"
   ],
   "note": "All lengths and bounds except the empty string under a bound of 65536 or more, which the decoder rejects (witness)."
  },
  {
   "property": "C15",
   "status": "partial",
   "theorems": [
    "Asn1.C15_bit_encoding",
    "Asn1.C15_bit_roundtrip_partial",
    "Asn1.C15_violation_empty_fragmented"
   ],
   "note": "As C14."
  },
  {
   "property": "C16",
   "status": "partial",
   "theorems": [
    "Asn1.C16_truncated_rejected_partial",
    "Asn1.C16_octets_without_length",
    "Asn1.C16_violation_truncated"
   ],
   "note": "Fragmented encodings only; below 65536 the decoder ignores the end of input (witness)."
  },
  {
   "property": "C17",
   "status": "partial",
   "theorems": [
    "Asn1.C17_acn_string_capacity",
    "Asn1.C17_violation_mult_capacity",
    "Asn1.C17_mult_capacity_partial",
    "Asn1.C17_octet_capacity",
    "Asn1.C17_bit_capacity"
   ],
   "note": "Octet, bit and ACN strings; the decoder for several terminator bytes stores one byte too far (C17_violation_mult_capacity), and is safe with one byte more."
  },
  {
   "property": "C18",
   "status": "proved",
   "theorems": [
    "Asn1.C18_isValid",
    "Asn1.C18_oid_encoding",
    "Asn1.C18_oid_roundtrip",
    "Asn1.C18_reloid_encoding",
    "Asn1.C18_reloid_roundtrip"
   ],
   "note": ""
  },
  {
   "property": "C19",
   "status": "partial",
   "theorems": [
    "Asn1.C19_partial",
    "Asn1.C19_special",
    "Asn1.C19_violation_small",
    "Asn1.C19_violation_negative_zero"
   ],
   "note": "All normal doubles of magnitude at least 2^-971 and all special values; smaller ones decode to zero (C19_violation_small), -0.0 loses its sign (C19_violation_negative_zero)."
  },
  {
   "property": "C20",
   "status": "partial",
   "theorems": [
    "Asn1.C20_uint_bits",
    "Asn1.C20_uint_big_endian",
    "Asn1.C20_uint_8",
    "Asn1.C20_uint_little_endian",
    "Asn1.C20_sint_bits_partial",
    "Asn1.C20_sint_8",
    "Asn1.C20_sint_big_endian_partial",
    "Asn1.C20_sint_little_endian_partial",
    "Asn1.C20_violation_min",
    "Asn1.C20_decode_min",
    "Asn1.C20_decoders_safe"
   ],
   "note": "All unsigned sizes and 8-bit signed proved in full; for the wider two's complement encoders -2^63 is missing because the encoder negates it (C20_violation_min); the decoders accept it (C20_decode_min)."
  },
  {
   "property": "C21",
   "status": "partial",
   "theorems": [
    "Asn1.C21_uint",
    "Asn1.C21_sint_partial",
    "Asn1.C21_violation_min",
    "Asn1.C21_decoders_safe"
   ],
   "note": "Unsigned proved in full; signed for every value but -2^63, where the encoder overflows (C21_violation_min)."
  },
  {
   "property": "C22",
   "status": "partial",
   "theorems": [
    "Asn1.C22_bcd_const_size",
    "Asn1.C22_bcd_length_embedded_partial",
    "Asn1.C22_violation_length_embedded",
    "Asn1.C22_bcd_null_terminated",
    "Asn1.C22_decoders_safe",
    "Asn1.C22_bcd_not_canonical"
   ],
   "note": "Constant size and null terminated in full; length embedded for values of at most 16 digits, the decoder rejects every larger one (C22_violation_length_embedded)."
  },
  {
   "property": "C23",
   "status": "partial",
   "theorems": [
    "Asn1.C23_uint_const_size",
    "Asn1.C23_sint_const_size_partial",
    "Asn1.C23_uint_length_embedded",
    "Asn1.C23_sint_length_embedded_partial",
    "Asn1.C23_uint_null_terminated_partial",
    "Asn1.C23_sint_null_terminated_partial",
    "Asn1.C23_terminator",
    "Asn1.C23_violation_min",
    "Asn1.C23_violation_min_decode",
    "Asn1.C23_violation_malformed_aborts",
    "Asn1.C23_violation_long_terminator",
    "Asn1.C23_uint_null_terminated_safe"
   ],
   "note": "All unsigned values with constant size and embedded length; signed without -2^63 (C23_violation_min); null terminated for terminators of 1 to 10 bytes that do not begin inside the text (C23_violation_long_terminator); malformed text aborts (C23_violation_malformed_aborts)."
  },
  {
   "property": "C24",
   "status": "proved",
   "theorems": [
    "Asn1.C24_ascii_fix_size",
    "Asn1.C24_ascii_null_terminated",
    "Asn1.C24_ascii_null_terminated_mult",
    "Asn1.C24_ascii_external",
    "Asn1.C24_ascii_internal",
    "Asn1.C24_index_fix_size",
    "Asn1.C24_index_external",
    "Asn1.C24_index_internal",
    "Asn1.C24_ia5",
    "Asn1.C24_external_clipped",
    "Asn1.C24_zero_character"
   ],
   "note": "Every admissible string: no zero character for the variable sizes (the encoders stop there, C24_zero_character), the terminator (1 to 10 bytes) does not begin inside the string, characters belong to the alphabet."
  },
  {
   "property": "C25",
   "status": "proved",
   "theorems": [
    "Asn1.C25_align",
    "Asn1.C25_violation_truncated"
   ],
   "note": "Byte, word and double word alignment, all positions. C25_violation_truncated: the decoder aborts on a truncated message (a C05 violation)."
  },
  {
   "property": "C26",
   "status": "partial",
   "theorems": [
    "Asn1.C26_partial",
    "Asn1.C26_ia5",
    "Asn1.C26_several_partial",
    "Asn1.C26_violation_min"
   ],
   "note": "All determinant kinds, widths and values that fit except -2^63 in eight octets (C26_violation_min); any number of determinants patched in any order; IA5String determinants."
  },
  {
   "property": "C27",
   "status": "partial",
   "theorems": [
    "Asn1.C27_ia5_partial",
    "Asn1.C27_violation_long",
    "Asn1.C27_violation_prefix"
   ],
   "note": "Numbers and BOOLEAN: any number of patches. IA5String up to 255 characters; longer equal strings are rejected (C27_violation_long), strings too long for the determinant are compared in part (C27_violation_prefix)."
  },
  {
   "property": "C28",
   "status": "proved",
   "theorems": [
    "Asn1.C28_roundtrip",
    "Asn1.C28_shortest",
    "Asn1.C28_says"
   ],
   "note": "All lengths an int can hold; the octets are shown to be the shortest definite form."
  },
  {
   "property": "C29",
   "status": "partial",
   "theorems": [
    "Asn1.C29_integer_partial",
    "Asn1.C29_boolean_partial",
    "Asn1.C29_null_partial",
    "Asn1.C29_octets_partial",
    "Asn1.C29_ia5_partial",
    "Asn1.C29_bits_partial",
    "Asn1.C29_indefinite",
    "Asn1.C29_other_tag_partial",
    "Asn1.C29_next_tag_partial",
    "Asn1.C29_violation_min",
    "Asn1.C29_violation_tag",
    "Asn1.C29_real_partial",
    "Asn1.C29_violation_real_negative_zero",
    "Asn1.C29_other_tag_real_partial"
   ],
   "note": "INTEGER without -2^63 (C29_violation_min), BOOLEAN, NULL, OCTET STRING, IA5String, BIT STRING, indefinite length marks; tags of at most four octets, longer ones are an undefined shift in the decoder (C29_violation_tag). REAL for all doubles the runtime holds (C29_real_partial); the negative zero loses its sign (C29_violation_real_negative_zero)."
  },
  {
   "property": "C30",
   "status": "partial",
   "theorems": [
    "Asn1.C30_bytes_partial",
    "Asn1.C30_encoders_partial",
    "Asn1.C30_decoders_partial",
    "Asn1.C30_violation_put",
    "Asn1.C30_violation_get",
    "Asn1.C30_violation_integer",
    "Asn1.C30_violation_bits",
    "Asn1.C30_encoder_real_partial",
    "Asn1.C30_decoder_real_partial",
    "Asn1.C30_violation_real"
   ],
   "note": "The stream behaves as if it had one octet more than it has (C30_violation_put, C30_violation_get); proved for objects with this octet. INTEGER and BIT STRING decoders have undefined behaviour for some lengths (C30_violation_integer, C30_violation_bits); so has the REAL decoder for four octets of exponent (C30_violation_real)."
  },
  {
   "property": "C31",
   "status": "proved",
   "theorems": [
    "Asn1.C31_binarySearch",
    "Asn1.C31_binarySearch_any_table",
    "Asn1.C31_linearSearch",
    "Asn1.C31_getCharIndex"
   ],
   "note": ""
  },
  {
   "property": "C32",
   "status": "proved",
   "theorems": [
    "Asn1.C32_octetString",
    "Asn1.C32_bitString",
    "Asn1.C32_objectIdentifier"
   ],
   "note": ""
  },
  {
   "property": "C33",
   "status": "partial",
   "theorems": [
    "Asn1.C33_integer_partial",
    "Asn1.C33_size_partial",
    "Asn1.C33_string_size_partial",
    "Asn1.C33_violation"
   ],
   "note": "INTEGER and SIZE constraints of every shape without an intersection with a range MIN..v, for which the computed range is wrong (C33_violation)."
  },
  {
   "property": "C34",
   "status": "partial",
   "theorems": [
    "Asn1.C34_max_partial",
    "Asn1.C34_min_partial",
    "Asn1.C34_buffer_partial",
    "Asn1.C34_violation_bits",
    "Asn1.C34_violation_min_size",
    "Asn1.C34_violation_min_int",
    "Asn1.C34_violation_serial"
   ],
   "note": "All types of the model; missing BIT STRING with a size narrowed by WITH COMPONENTS (C34_violation_bits), extensible INTEGER with further constraints (C34_violation_serial); the minimum also misses sizes from 65536 on (C34_violation_min_size) and extensible INTEGER with a bounded root (C34_violation_min_int)."
  },
  {
   "property": "C35",
   "status": "partial",
   "theorems": [
    "Asn1.C35_encoding",
    "Asn1.C35_roundtrip_partial",
    "Asn1.C35_violation_min"
   ],
   "note": "All types of unbounded nesting, REAL included; missing -2^63 in an INTEGER without lower bound (C35_violation_min), the ranges and values for which C09-C11 fail, and the doubles for which C19 fails. Time types and CONTAINING are not modelled."
  },
  {
   "property": "C36",
   "status": "proved",
   "theorems": [
    "Asn1.C36_unambiguous",
    "Asn1.C36_prefix_free",
    "Asn1.C36_concatenation"
   ],
   "note": "All types of the model and all values for which C35 holds; the theorems speak about the bits the encoder is proved to write (C35_encoding)."
  },
  {
   "property": "C37",
   "status": "partial",
   "theorems": [
    "Asn1.C37_truncated_refused_partial",
    "Asn1.C37_violation_octets"
   ],
   "note": "All types without an OCTET STRING of variable size below 65536 that may be empty (C37_violation_octets) and without character strings or SEQUENCE OF of a fixed size of 65536 or more."
  },
  {
   "property": "C38",
   "status": "partial",
   "theorems": [
    "Asn1.C38_partial",
    "Asn1.C38_written_partial",
    "Asn1.C38_integers_partial",
    "Asn1.C38_source",
    "Asn1.C38_violation_stale",
    "Asn1.C38_violation_padding",
    "Asn1.C38_violation_partial_byte",
    "Asn1.C38_violation_octets",
    "Asn1.C38_violation_refused",
    "Asn1.C38_violation_zeros",
    "Asn1.C38_violation"
   ],
   "note": "Every program over the append primitives and every buffer size, if pushData clears the buffer, rows of zeros end within the next buffer and octet strings fit into the current buffer; integer encoders for buffers of 8 bytes or more. False without these: C38_violation_stale, _padding, _partial_byte, _octets, _refused, _zeros."
  },
  {
   "property": "C39",
   "status": "partial",
   "theorems": [
    "Asn1.C39_checkBitPatternPresent",
    "Asn1.C39_readBits_found_partial",
    "Asn1.C39_readBits_absent",
    "Asn1.C39_violation_max_zero"
   ],
   "note": "All patterns, positions and contents; ReadBits_nullterminated with a maximum of 0 never looks for the terminator (witness)."
  },
  {
   "property": "C40",
   "status": "proved",
   "theorems": [
    "Asn1.C40_bool_two_patterns",
    "Asn1.C40_bool_other_rejected",
    "Asn1.C40_bool_one_pattern",
    "Asn1.C40_bool_safe",
    "Asn1.C40_ieee754"
   ],
   "note": "Booleans with one or two patterns (hypothesis: the patterns differ in the n bits), IEEE754 images of any size on a little endian machine. The float/double conversion of the 32-bit encoder is not modelled."
  },
  {
   "property": "C41",
   "status": "proved",
   "theorems": [
    "Asn1.C41_milbus"
   ],
   "note": "Full."
  },
  {
   "property": "C42",
   "status": "proved",
   "theorems": [
    "Asn1.C42_narrow_signed",
    "Asn1.C42_narrow_unsigned"
   ],
   "note": ""
  },
  {
   "property": "C43",
   "status": "partial",
   "theorems": [
    "Asn1.C43_violation_invalid_accepted",
    "Asn1.C43_violation_unfinished_accepted",
    "Asn1.C43_oid_accepted_partial"
   ],
   "note": "Component count and second component only; the first component may exceed 2 and the last subidentifier may be unfinished (witnesses)."
  },
  {
   "property": "C44",
   "status": "partial",
   "theorems": [
    "Asn1.C44_narrow_unsigned_partial",
    "Asn1.C44_narrow_signed_partial",
    "Asn1.C44_violation"
   ],
   "note": "Agreement proved; values that do not fit are truncated and accepted (C44_violation)."
  },
  {
   "property": "C45",
   "status": "partial",
   "theorems": [
    "Asn1.C45_decoder_safe_partial",
    "Asn1.C45_violation_fixed_size",
    "Asn1.C45_violation_overflow",
    "Asn1.C45_violation_real"
   ],
   "note": "All types except INTEGER with a negative lower bound and no upper bound (C45_violation_overflow), character strings or SEQUENCE OF with a fixed size of 65536 or more (C45_violation_fixed_size), and REAL (C45_violation_real; C58 has the safe inputs)."
  },
  {
   "property": "C46",
   "status": "partial",
   "theorems": [
    "Asn1.C46_enumerated_partial",
    "Asn1.C46_violation_table"
   ],
   "note": "Both modes; a table emitted for a constrained type assignment is read out of bounds (C46_violation_table)."
  },
  {
   "property": "C47",
   "status": "partial",
   "theorems": [
    "Asn1.C47_conforms_partial",
    "Asn1.C47_violation_enum",
    "Asn1.C47_violation_real",
    "Asn1.C47_violation_fragments"
   ],
   "note": "All types except ENUMERATED declared out of order in switch mode (C47_violation_enum), fixed sizes that are multiples of 16384 from 65536 on (C47_violation_fragments), and REAL (C47_violation_real). The order of CHOICE alternatives is taken as given."
  },
  {
   "property": "C48",
   "status": "partial",
   "theorems": [
    "Asn1.C48_accepted_valid_partial",
    "Asn1.C48_reencode_partial",
    "Asn1.C48_violation_min"
   ],
   "note": "Types as in C45 without -2^63 in an INTEGER without lower bound (C48_violation_min)."
  },
  {
   "property": "C49",
   "status": "partial",
   "theorems": [
    "Asn1.C49_valid_iff_partial",
    "Asn1.C49_type_holds",
    "Asn1.C49_violation"
   ],
   "note": "All constraint expressions whose literals are written with the signedness of the C type; a negative literal in an unsigned type accepts wrong values (C49_violation)."
  },
  {
   "property": "C50",
   "status": "proved",
   "theorems": [
    "Asn1.C50_alphabet",
    "Asn1.C50_increasing",
    "Asn1.C50_within"
   ],
   "note": "All constraint expressions."
  },
  {
   "property": "C51",
   "status": "partial",
   "theorems": [
    "Asn1.C51_integer_partial",
    "Asn1.C51_boolean_partial",
    "Asn1.C51_null_partial",
    "Asn1.C51_octets_partial",
    "Asn1.C51_violation_wrap",
    "Asn1.C51_violation_truncated",
    "Asn1.C51_violation_indefinite",
    "Asn1.C51_violation_bits",
    "Asn1.C51_violation_real_length",
    "Asn1.C51_violation_real_decimal",
    "Asn1.C51_violation_real_special"
   ],
   "note": "INTEGER, BOOLEAN, NULL, OCTET STRING below the maximum; lengths wrap around at 2^32 (C51_violation_wrap), longer strings are truncated (C51_violation_truncated), indefinite lengths and unused bits give negative counts (C51_violation_indefinite, C51_violation_bits); REAL: long form lengths, decimal encodings and trailing contents octets are misread (C51_violation_real_*)."
  },
  {
   "property": "C52",
   "status": "partial",
   "theorems": [
    "Asn1.C52_bits_encode",
    "Asn1.C52_bits_decode",
    "Asn1.C52_octets_encode",
    "Asn1.C52_octets_decode_partial",
    "Asn1.C52_violation_unaligned",
    "Asn1.C52_violation_padding",
    "Asn1.C52_embedded_bits_partial",
    "Asn1.C52_embedded_octets_partial",
    "Asn1.C52_violation_embedded"
   ],
   "note": "BIT STRING with a determinant: complete. OCTET STRING only at octet boundaries and whole octets (C52_violation_unaligned, C52_violation_padding). Embedded lengths unless the field crosses an octet boundary (C52_violation_embedded)."
  },
  {
   "property": "C53",
   "status": "partial",
   "theorems": [
    "Asn1.C53_octets_partial",
    "Asn1.C53_bits_partial",
    "Asn1.C53_violation"
   ],
   "note": "Holds when the announced contents lie in the message; the code does not check this (C53_violation)."
  },
  {
   "property": "C54",
   "status": "partial",
   "theorems": [
    "Asn1.C54_partial",
    "Asn1.C54_violation"
   ],
   "note": "uPER determinants whose lower bound is not positive; fails otherwise (C54_violation)."
  },
  {
   "property": "C55",
   "status": "partial",
   "theorems": [
    "Asn1.C55_partial",
    "Asn1.C55_violation_subnormal"
   ],
   "note": "All normal doubles; subnormal ones are encoded as another value (C55_violation_subnormal)."
  },
  {
   "property": "C56",
   "status": "partial",
   "theorems": [
    "Asn1.C56_partial",
    "Asn1.C56_violation"
   ],
   "note": "Base 2, no scaling, shortest octets for the mantissa and exponent that are written; the mantissa is not made odd (C56_violation)."
  },
  {
   "property": "C57",
   "status": "partial",
   "theorems": [
    "Asn1.C57_partial",
    "Asn1.C57_exact_partial",
    "Asn1.C57_too_large",
    "Asn1.C57_short_exponent",
    "Asn1.C57_violation_small",
    "Asn1.C57_violation_mantissa",
    "Asn1.C57_violation_long_exponent",
    "Asn1.C57_violation_decimal"
   ],
   "note": "Base 2, 8 and 16, every scale factor, mantissas of up to 64 bits: the nearest double with ties to even, exactly the value where a double has it, an infinity from the IEEE 754 limit on; missing: powers of two below -1023 (C57_violation_small), mantissas above 64 bits (C57_violation_mantissa), the long form of the exponent length (C57_violation_long_exponent), decimal encodings (C57_violation_decimal)."
  },
  {
   "property": "C58",
   "status": "partial",
   "theorems": [
    "Asn1.C58_partial",
    "Asn1.C58_violation_negate",
    "Asn1.C58_violation_multiply",
    "Asn1.C58_violation_past_end"
   ],
   "note": "Every input unless the two low bits of the first contents octet are both set, with one readable byte behind the buffer; undefined arithmetic or a read behind the buffer otherwise (C58_violation_negate, C58_violation_multiply, C58_violation_past_end)."
  },
  {
   "property": "C59",
   "status": "partial",
   "theorems": [
    "Asn1.C59_reflexive",
    "Asn1.C59_nan",
    "Asn1.C59_symmetric",
    "Asn1.C59_violation"
   ],
   "note": "Reflexive except for NaN, symmetric; not transitive (C59_violation)."
  },
  {
   "property": "C60",
   "status": "partial",
   "theorems": [
    "Asn1.C60_partial",
    "Asn1.C60_union_partial",
    "Asn1.C60_violation_max",
    "Asn1.C60_violation_except"
   ],
   "note": "Ranges of one shape (two bounds, v..MAX, or MIN..v), intersections, series, and unions at the top; a range v..MAX intersected with a range inside of it gives a range that is too wide (C60_violation_max), EXCEPT is not taken into account (C60_violation_except)."
  },
  {
   "property": "C61",
   "status": "partial",
   "theorems": [
    "Asn1.C61_tag_partial",
    "Asn1.C61_zeros_partial",
    "Asn1.C61_violation"
   ],
   "note": "Tags of at most four octets; an octet behind the stream has to be readable (C61_violation)."
  },
  {
   "property": "C62",
   "status": "partial",
   "theorems": [
    "Asn1.C62_partial",
    "Asn1.C62_integers_partial",
    "Asn1.C62_source",
    "Asn1.C62_violation_unaligned",
    "Asn1.C62_violation_octets",
    "Asn1.C62_violation_out_of_bounds",
    "Asn1.C62_violation_truncated",
    "Asn1.C62_violation"
   ],
   "note": "Every decoder whose calls stay inside the message and inside the current buffer where the source needs it (ROp.LegalAt), with the integer decoders at byte boundaries for every buffer size. False otherwise: C62_violation_unaligned, _octets, _out_of_bounds, _truncated."
  },
  {
   "property": "C63",
   "status": "partial",
   "theorems": [
    "Asn1.C63_null_partial",
    "Asn1.C63_integer_partial",
    "Asn1.C63_pos_integer_partial",
    "Asn1.C63_boolean_partial",
    "Asn1.C63_enumerated_partial",
    "Asn1.C63_string_partial",
    "Asn1.C63_octet_string_partial",
    "Asn1.C63_bit_string_partial",
    "Asn1.C63_violation_string",
    "Asn1.C63_violation_long_tag",
    "Asn1.C63_violation_octet_string",
    "Asn1.C63_violation_object_identifier"
   ],
   "note": "Tags of 1 to 99 name characters; strings without '<' and 0, at most 511 octets, at most 2047 bits (C63_violation_string, _long_tag, _octet_string); OBJECT IDENTIFIER does not round-trip (C63_violation_object_identifier); REAL is not modelled."
  },
  {
   "property": "C64",
   "status": "partial",
   "theorems": [
    "Asn1.C64_null",
    "Asn1.C64_pos_integer",
    "Asn1.C64_integer_partial",
    "Asn1.C64_boolean_partial",
    "Asn1.C64_enumerated_partial",
    "Asn1.C64_string",
    "Asn1.C64_octet_string",
    "Asn1.C64_bit_string_partial",
    "Asn1.C64_element_start_partial",
    "Asn1.C64_element_end",
    "Asn1.C64_look_ahead",
    "Asn1.C64_violation_attribute",
    "Asn1.C64_violation_attribute_name",
    "Asn1.C64_violation_integer",
    "Asn1.C64_violation_bit_string"
   ],
   "note": "NULL, unsigned INTEGER, strings, OCTET STRING and looking ahead: every input. Signed INTEGER without 19 digits in a row, BOOLEAN, ENUMERATED and element starts without a double quote, BIT STRING with an array of 256 octets or more; false otherwise (C64_violation_*)."
  },
  {
   "property": "C65",
   "status": "partial",
   "theorems": [
    "Asn1.C65_null",
    "Asn1.C65_integer",
    "Asn1.C65_pos_integer",
    "Asn1.C65_boolean",
    "Asn1.C65_enumerated_partial",
    "Asn1.C65_string",
    "Asn1.C65_octet_string",
    "Asn1.C65_bit_string",
    "Asn1.C65_object_identifier",
    "Asn1.C65_violation_enumerated",
    "Asn1.C65_violation_header",
    "Asn1.C65_violation_reused"
   ],
   "note": "All encoders on a stream that is 0 behind the position; names of at most 252 characters (C65_violation_enumerated); the header is not checked (C65_violation_header); a stream that was not cleared (C65_violation_reused)."
  },
  {
   "property": "C66",
   "status": "partial",
   "theorems": [
    "Asn1.C66_string",
    "Asn1.C66_null_partial",
    "Asn1.C66_pos_integer_partial",
    "Asn1.C66_violation_null",
    "Asn1.C66_violation_integer",
    "Asn1.C66_violation_octet_string",
    "Asn1.C66_violation_bit_string",
    "Asn1.C66_violation_empty_element"
   ],
   "note": "Character strings in full; NULL and unsigned INTEGER as far as the element goes; contents are not checked (C66_violation_null, _integer, _octet_string, _bit_string)."
  },
  {
   "property": "C67",
   "status": "partial",
   "theorems": [
    "Asn1.C67_text_partial",
    "Asn1.C67_round_trip_partial",
    "Asn1.C67_violation_string",
    "Asn1.C67_violation_less_than"
   ],
   "note": "All types of unbounded nesting except REAL, OBJECT IDENTIFIER and time types; names of 1 to 99 characters, at most 511 octets and 2047 bits, strings without '<' (C67_violation_less_than), strings that are components and not type assignments of their own (C67_violation_string)."
  },
  {
   "property": "C68",
   "status": "partial",
   "theorems": [
    "Asn1.C68_size_suffices_partial",
    "Asn1.C68_violation_enumerated",
    "Asn1.C68_violation_white"
   ],
   "note": "Without white space (C68_violation_white), items of an ENUMERATED at most twice as long as each other (C68_violation_enumerated), no reference without a tag."
  },
  {
   "property": "C69",
   "status": "partial",
   "theorems": [
    "Asn1.C69_checked_partial",
    "Asn1.C69_violation_enumerated",
    "Asn1.C69_violation_sequence_of",
    "Asn1.C69_violation_integer",
    "Asn1.C69_violation_choice",
    "Asn1.C69_violation_octets"
   ],
   "note": "INTEGER, BOOLEAN, NULL, strings, SEQUENCE, SEQUENCE OF without lower bound, CHOICE without a tag, of unbounded nesting. False for ENUMERATED, SEQUENCE OF with a lower bound, CHOICE with a tag, OCTET STRING (C69_violation_*); a failed INTEGER may be masked by the old contents (C69_violation_integer)."
  },
  {
   "property": "C70",
   "status": "partial",
   "theorems": [
    "Asn1.C70_decoder_safe_partial",
    "Asn1.C70_violation_bits",
    "Asn1.C70_violation_string",
    "Asn1.C70_violation_attribute"
   ],
   "note": "Texts without double quotes and without 19 digits in a row (C64); BIT STRING of 2041 bits or more (C70_violation_bits), strings whose sizeof is right (C70_violation_string)."
  },
  {
   "property": "C71",
   "status": "partial",
   "theorems": [
    "Asn1.C71_encoding_partial",
    "Asn1.C71_roundtrip_partial",
    "Asn1.C71_violation_mapping"
   ],
   "note": "All types and ACN specifications of the model, of unbounded nesting; parameters with one dependent, determinants in front of what they describe, values that give each inserted determinant a value that fits (C72). False for mapping functions with 16 bit two's complement big endian integers (C71_violation_mapping)."
  },
  {
   "property": "C72",
   "status": "partial",
   "theorems": [
    "Asn1.C72_no_contradiction",
    "Asn1.C72_violation_absent",
    "Asn1.C72_violation_parameter"
   ],
   "note": "An encoder that returns TRUE never sends a contradiction (C72_no_contradiction), and sends the required value (C71_encoding_partial); but some values that satisfy the constraints are refused: C72_violation_absent, C72_violation_parameter."
  },
  {
   "property": "C73",
   "status": "partial",
   "theorems": [
    "Asn1.C73_decoder_safe_partial",
    "Asn1.C73_violation_overflow",
    "Asn1.C73_violation_overflow_bits",
    "Asn1.C73_violation_negative",
    "Asn1.C73_violation_uninitialised",
    "Asn1.C73_violation_ascii",
    "Asn1.C73_violation_string"
   ],
   "note": "All types of unbounded nesting that AcnGuarded admits. False otherwise: a length determinant whose bits can say more than its declared range (C73_violation_overflow, _overflow_bits: buffer overflow), that can be negative (_negative), or that is inside an OPTIONAL component (_uninitialised); ASCII integers (_ascii); null terminated strings (_string)."
  },
  {
   "property": "C74",
   "status": "partial",
   "theorems": [
    "Asn1.C74_max_partial",
    "Asn1.C74_min_partial",
    "Asn1.C74_buffer_partial",
    "Asn1.C74_violation_min_list",
    "Asn1.C74_violation_min_absent"
   ],
   "note": "Types as in C71; components without ACN properties as in C34. The announced minimum is too large for lists whose elements differ in size (C74_violation_min_list) and for components that are always absent (C74_violation_min_absent)."
  },
  {
   "property": "C75",
   "status": "partial",
   "theorems": [
    "Asn1.C75_accepted_valid_partial"
   ],
   "note": "All types of unbounded nesting and all stream states; components without ACN properties as in C48."
  },
  {
   "property": "C76",
   "status": "partial",
   "theorems": [
    "Asn1.C76_unambiguous_partial",
    "Asn1.C76_prefix_free_partial"
   ],
   "note": "As C71."
  },
  {
   "property": "C77",
   "status": "partial",
   "theorems": [
    "Asn1.C77_truncated_refused_partial",
    "Asn1.C77_violation_real32",
    "Asn1.C77_violation_align"
   ],
   "note": "As C71, without 32 bit little endian REAL (C77_violation_real32), alignment to 16 or 32 bits (C77_violation_align) and the uPER strings of C37."
  },
  {
   "property": "C78",
   "status": "partial",
   "theorems": [
    "Asn1.C78_relay_partial",
    "Asn1.C78_violation_absent",
    "Asn1.C78_violation_clipped"
   ],
   "note": "Types that AcnGuarded (C73) and AcnRelays admit. False otherwise: the length of an absent component (C78_violation_absent), a length shared by a character string and something else (C78_violation_clipped)."
  },
  {
   "property": "C79",
   "status": "partial",
   "theorems": [
    "Asn1.C79_equal_partial",
    "Asn1.C79_valuesOnly",
    "Asn1.C79_withReal",
    "Asn1.C79_same",
    "Asn1.C79_real_violation",
    "Asn1.C79_default_violation",
    "Asn1.C79_none"
   ],
   "note": "All types of unbounded nesting without REAL; with REAL up to Asn1Real_Equal (C79_withReal, C79_same). False for REAL (C79_real_violation) and for an absent component whose DEFAULT is given explicitly (C79_default_violation)."
  },
  {
   "property": "C80",
   "status": "partial",
   "theorems": [
    "Asn1.C80_valid_partial",
    "Asn1.C80_union_violation",
    "Asn1.C80_unionAbsent_violation",
    "Asn1.C80_singleValue_violation",
    "Asn1.C80_exceptValue_violation",
    "Asn1.C80_exceptSize_violation",
    "Asn1.C80_fixedReference_violation"
   ],
   "note": "All types of unbounded nesting whose constraints CTy.Fits admits. False otherwise: WITH COMPONENT(S) as the right operand of a union (C80_union_violation, C80_unionAbsent_violation), single values of SEQUENCE, SEQUENCE OF, CHOICE (C80_singleValue_violation, C80_exceptValue_violation), SIZE in types of fixed size (C80_exceptSize_violation, C80_fixedReference_violation). Time types are not modelled."
  },
  {
   "property": "C81",
   "status": "partial",
   "theorems": [
    "Asn1.C81_anyObject_partial",
    "Asn1.C81_negative_violation",
    "Asn1.C81_character_violation",
    "Asn1.C81_item_violation",
    "Asn1.C81_arcs_violation",
    "Asn1.C81_componentFirst_violation"
   ],
   "note": "Types whose first constraint is SIZE. False for negative counts (C81_negative_violation), octets above 127 (C81_character_violation), numbers that are no item (C81_item_violation), more than 20 arcs (C81_arcs_violation), WITH COMPONENT before SIZE (C81_componentFirst_violation)."
  },
  {
   "property": "C82",
   "status": "partial",
   "theorems": [
    "Asn1.C82_initialize_partial",
    "Asn1.C82_valid_partial",
    "Asn1.C82_equal_partial",
    "Asn1.C82_allExcept_violation",
    "Asn1.C82_except_violation",
    "Asn1.C82_realOpen_violation",
    "Asn1.C82_octetsExcept_violation",
    "Asn1.C82_bitsValue_violation",
    "Asn1.C82_alphabet_violation",
    "Asn1.C82_strValue_violation",
    "Asn1.C82_oid_violation",
    "Asn1.C82_choiceAbsent_violation"
   ],
   "note": "All types of unbounded nesting that CTy.InitOk admits. False otherwise: EXCEPT (C82_allExcept_violation, C82_except_violation, C82_octetsExcept_violation), open ranges of REAL (C82_realOpen_violation), single values of BIT STRING and strings (C82_bitsValue_violation, C82_strValue_violation), unprintable alphabets (C82_alphabet_violation), OBJECT IDENTIFIER (C82_oid_violation), an absent first alternative (C82_choiceAbsent_violation). WITH COMPONENT(S) is not modelled here."
  },
  {
   "property": "C83",
   "status": "partial",
   "theorems": [
    "Asn1.C83_declared_partial",
    "Asn1.C83_fixedReference_violation",
    "Asn1.C83_bits_violation",
    "Asn1.C83_quote_violation"
   ],
   "note": "All types of unbounded nesting. False for BIT STRING of variable size (C83_bits_violation), for a reference that fixes the size of a type of variable size (C83_fixedReference_violation) and for quotation marks in strings (C83_quote_violation)."
  },
  {
   "property": "C84",
   "status": "proved",
   "theorems": [
    "Asn1.C84_order",
    "Asn1.C84_cyclic",
    "Asn1.C84_header",
    "Asn1.C84_header_cyclic",
    "Asn1.C84_modules"
   ],
   "note": "All files, modules and types of unbounded number and nesting."
  },
  {
   "property": "C85",
   "status": "partial",
   "theorems": [
    "Asn1.C85_includes_partial",
    "Asn1.C85_twoModules_violation"
   ],
   "note": "Files with one module each. False otherwise: C85_twoModules_violation."
  },
  {
   "property": "C86",
   "status": "partial",
   "theorems": [
    "Asn1.C86_accepted_partial",
    "Asn1.C86_width",
    "Asn1.C86_as_written",
    "Asn1.C86_rejected_partial",
    "Asn1.C86_ascii_violation",
    "Asn1.C86_bcd_violation",
    "Asn1.C86_terminator_violation",
    "Asn1.C86_noTerminator_violation",
    "Asn1.C86_rejected_violation"
   ],
   "note": "All ranges and properties, except what the compiler does not check: -10^(n-1) in n ASCII characters (C86_ascii_violation), negative numbers in BCD digits with a terminator (C86_bcd_violation: writes outside a buffer of the announced size), terminators that are digits or empty (C86_terminator_violation, C86_noTerminator_violation); and ASCII digits for ranges without negative numbers are rejected although they fit (C86_rejected_violation). Mapping functions are left out here."
  },
  {
   "property": "C87",
   "status": "partial",
   "theorems": [
    "Asn1.C87_numbers",
    "Asn1.C87_unique",
    "Asn1.C87_distinct",
    "Asn1.C87_accepted_partial",
    "Asn1.C87_twice_violation",
    "Asn1.C87_negative_violation"
   ],
   "note": "All lists of items. The round trip needs distinct numbers in the ACN specification (C87_twice_violation) and no negative numbers in the uPER encoding (C87_negative_violation)."
  },
  {
   "property": "C88",
   "status": "partial",
   "theorems": [
    "Asn1.C88_text_partial",
    "Asn1.C88_accepted_partial",
    "Asn1.C88_reference",
    "Asn1.C88_constant_violation",
    "Asn1.C88_nested_violation",
    "Asn1.C88_longer_violation"
   ],
   "note": "All expressions of unbounded depth without ACN constants, which are printed as nothing (C88_constant_violation). References into a SEQUENCE are always rejected (C88_nested_violation), and a path that is too long is accepted and reads another component (C88_longer_violation)."
  },
  {
   "property": "C89",
   "status": "partial",
   "theorems": [
    "Asn1.C89_value_partial",
    "Asn1.C89_small_partial",
    "Asn1.C89_boolean",
    "Asn1.C89_presence_partial",
    "Asn1.C89_unsigned_violation",
    "Asn1.C89_wrap_violation",
    "Asn1.C89_undefined_violation",
    "Asn1.C89_late_violation"
   ],
   "note": "All expressions of unbounded depth over INTEGER and BOOLEAN whose numbers fit the C types of the operations (Representable; C89_small_partial gives a simple condition). False otherwise: comparison of an unsigned component with a negative number (C89_unsigned_violation), unsigned subtraction (C89_wrap_violation), overflow and division by zero (C89_undefined_violation), components that come later (C89_late_violation). REAL is not modelled here."
  },
  {
   "property": "C90",
   "status": "partial",
   "theorems": [
    "Asn1.C90_layout_partial",
    "Asn1.C90_written_partial"
   ],
   "note": "All types of unbounded nesting and all layouts, for names, sizes and texts as in C67."
  },
  {
   "property": "C91",
   "status": "partial",
   "theorems": [
    "Asn1.C91_load_partial",
    "Asn1.C91_written_partial",
    "Asn1.C91_safe",
    "Asn1.C91_long_violation",
    "Asn1.C91_comment_violation",
    "Asn1.C91_doctype_violation"
   ],
   "note": "All files whose comments contain no `->`, with at most 4096 characters of white space in one place and strings of at most 4096 characters; C91_safe for all files. False otherwise: C91_long_violation, C91_comment_violation (a wrong number is read), C91_doctype_violation (nothing is loaded, TRUE). That the file can be opened is assumed."
  },
  {
   "property": "C92",
   "status": "partial",
   "theorems": [
    "Asn1.C92_distinct",
    "Asn1.C92_ends_partial",
    "Asn1.C92_identifier_partial",
    "Asn1.C92_own_names",
    "Asn1.C92_overflow_violation",
    "Asn1.C92_function_violation",
    "Asn1.C92_functions_partial"
   ],
   "note": "C92_distinct and C92_own_names for all requests; the end for fewer than 2^32 types and type prefixes of letters, digits, underscores; identifiers if no name ends in a number of more than eight digits (else C92_overflow_violation); function names if no type name ends in one of the words put behind type names (else C92_function_violation)."
  },
  {
   "property": "C93",
   "status": "partial",
   "theorems": [
    "Asn1.C93_distinct",
    "Asn1.C93_ends_partial",
    "Asn1.C93_own_names",
    "Asn1.C93_hang_violation",
    "Asn1.C93_crash_partial",
    "Asn1.C93_crash_violation",
    "Asn1.C93_names_violation"
   ],
   "note": "C93_distinct and C93_own_names for all inputs that are finished, policy SelectiveEnumerants (the default for C). The end if value names differ over all modules (else the compiler never finishes, C93_hang_violation). False otherwise: C93_crash_violation (exception), C93_names_violation (C99 keywords, names of values with hyphens, names of types)."
  },
  {
   "property": "C94",
   "status": "partial",
   "theorems": [
    "Asn1.C94_roundtrip_partial",
    "Asn1.C94_refused_partial",
    "Asn1.C94_sameBits_partial",
    "Asn1.C94_injective_partial",
    "Asn1.C94_buffer_partial",
    "Asn1.C94_initialized_partial",
    "Asn1.C94_fixedReference_violation"
   ],
   "note": "All types of unbounded nesting and all objects. Missing: constraint forms outside CTy.Fits (C80), types outside Ok (C35), constraints with extension markers or MIN in intersections, references to SEQUENCE and CHOICE types with constraints of their own, references that fix the size of a type of variable size (there the statement is false: C94_fixedReference_violation), NumericString (Computed); integers outside 64 bits, reals that the encoding does not hold, components against their PRESENT/ABSENT mark (Codable); REAL in the comparison by _Equal (C79)."
  },
  {
   "property": "C95",
   "status": "partial",
   "theorems": [
    "Asn1.C95_denotes_partial",
    "Asn1.C95_unique",
    "Asn1.C95_accepted_partial",
    "Asn1.C95_hexBits_partial",
    "Asn1.C95_hexOctets",
    "Asn1.C95_integerAsReal",
    "Asn1.C95_oddDigits_violation",
    "Asn1.C95_twice_violation",
    "Asn1.C95_governor_violation"
   ],
   "note": "All types and values of unbounded nesting. False otherwise: a component given twice is accepted (C95_twice_violation), a value of a type A for a type B ::= A is refused (C95_governor_violation), a literal '...'H with an odd number of digits gets four bits too many as a BIT STRING (C95_oddDigits_violation). Names inside OBJECT IDENTIFIER values and time values are not modelled."
  },
  {
   "property": "C96",
   "status": "partial",
   "theorems": [
    "Asn1.C96_constraint_partial"
   ],
   "note": "All constraints of unbounded nesting that are translated, if single values in them are values of the type. INCLUDES and MIN..MAX are the subject of C99; the WITH COMPONENTS of a SEQUENCE without `...` is treated as with it (X.680 51.8.5 is not modelled)."
  },
  {
   "property": "C97",
   "status": "partial",
   "theorems": [
    "Asn1.C97_accepted_partial",
    "Asn1.C97_decided_partial",
    "Asn1.C97_hexSize_partial",
    "Asn1.C97_real_violation",
    "Asn1.C97_names_violation",
    "Asn1.C97_module_violation",
    "Asn1.C97_padding_violation",
    "Asn1.C97_inside_violation",
    "Asn1.C97_innerSize_violation",
    "Asn1.C97_optional_violation",
    "Asn1.C97_present_violation",
    "Asn1.C97_alphabet_violation",
    "Asn1.C97_oid_violation",
    "Asn1.C97_bitsForOctets_violation"
   ],
   "note": "All types and constraints of unbounded nesting of the forms NTy.Plain, values as in NTy.Direct. False otherwise: C97_real_violation (REAL (1..2) DEFAULT 2.5 accepted), C97_module_violation, C97_padding_violation, C97_inside_violation, C97_present_violation (accepted although invalid); C97_names_violation, C97_innerSize_violation, C97_optional_violation, C97_alphabet_violation, C97_oid_violation, C97_bitsForOctets_violation (refused although valid)."
  },
  {
   "property": "C98",
   "status": "partial",
   "theorems": [
    "Asn1.C98_constant_partial",
    "Asn1.C98_valid_partial",
    "Asn1.C98_equal_partial",
    "Asn1.C98_encoded_partial",
    "Asn1.C98_sameAsDeclared_partial",
    "Asn1.C98_bits_violation",
    "Asn1.C98_fixedReference_violation",
    "Asn1.C98_fixedReference2_violation",
    "Asn1.C98_fixedElements_violation",
    "Asn1.C98_quote_violation",
    "Asn1.C98_noComponents_violation",
    "Asn1.C98_infinity_violation"
   ],
   "note": "All types and values of unbounded nesting that CTy.Constant admits. False otherwise: BIT STRING of variable size (C98_bits_violation: the count is that of octets), references that fix the size of a type of variable size (C98_fixedReference_violation, C98_fixedReference2_violation, C98_fixedElements_violation), quotation marks (C98_quote_violation), a SEQUENCE of optional components without any (C98_noComponents_violation) and infinite REAL values (C98_infinity_violation: the C compiler rejects the constant). That 20 decimal digits identify a finite double is assumed."
  },
  {
   "property": "C99",
   "status": "partial",
   "theorems": [
    "Asn1.C99_kept_partial",
    "Asn1.C99_translated_partial",
    "Asn1.C99_dropped_partial",
    "Asn1.C99_something_partial",
    "Asn1.C99_union_violation",
    "Asn1.C99_mark_violation",
    "Asn1.C99_except_violation",
    "Asn1.C99_extension_violation"
   ],
   "note": "All constraints of unbounded nesting in which included types without constraints occur only where they may be dropped (SC.Regular). False otherwise: INTEGER (1..5 | T) with T ::= INTEGER becomes (1..5) (C99_union_violation), WITH COMPONENTS { a (T) PRESENT } loses PRESENT (C99_mark_violation), (1..5 EXCEPT T) loses the exception (C99_except_violation), (1..5, ..., MIN..MAX) becomes (1..5, ...) (C99_extension_violation). Constraints on parts of an included type are not modelled."
  },
  {
   "property": "C100",
   "status": "partial",
   "theorems": [
    "Asn1.C100_meaning_partial",
    "Asn1.C100_check_partial",
    "Asn1.C100_roundtrip_partial",
    "Asn1.C100_object_partial",
    "Asn1.C100_refused_partial",
    "Asn1.C100_injective_partial",
    "Asn1.C100_buffer_partial",
    "Asn1.C100_default_partial"
   ],
   "note": "Types of unbounded nesting that are compiled (an error otherwise) and for which CTy.Fits, Ok (no violation of C47, C80) and NTy.Ordinary hold. Not modelled in this chain: extension markers in INTEGER, SIZE and FROM, single values of SEQUENCE OF, nested WITH COMPONENT, references on which an outer WITH COMPONENTS puts constraints; the round trip (not the check) also excludes references to SEQUENCE and CHOICE types with constraints of their own, WITH COMPONENT at a reference, and references that fix the size of a type of variable size (C94_fixedReference_violation). C100_object_partial: numbers of 64 bits, OBJECT IDENTIFIERs of up to 20 arcs. A type ENUMERATED without constraints gets the constraint of all its items before (CreateAsn1AstFromAntlrTree.fs:560-568); the theorems speak about the type with or without it."
  },
  {
   "property": "C101",
   "status": "partial",
   "theorems": [
    "Asn1.C101_instance_partial",
    "Asn1.C101_gone_partial",
    "Asn1.C101_extensible_violation",
    "Asn1.C101_capture_violation",
    "Asn1.C101_passedOn_violation",
    "Asn1.C101_dropped_violation",
    "Asn1.C101_deep_violation"
   ],
   "note": "Specifications of unbounded size with instances nested without bound that are tidy (PProg.Tidy), given that the removal ends with a result; that it ends is not proved. False otherwise: an extensible constraint in a parameterized type makes the compiler run forever (C101_extensible_violation), a name in a constraint of an actual parameter is captured by an inner dummy reference (C101_capture_violation), a value passed on to an inner instance is not put in (C101_passedOn_violation), a constraint on a dummy reference that is an actual parameter is lost (C101_dropped_violation), a dummy reference inside a larger actual parameter stays (C101_deep_violation). Not modelled: implicit imports, ACN properties, COMPONENTS OF, included types, the module of ENUMERATED items."
  },
  {
   "property": "C102",
   "status": "partial",
   "theorems": [
    "Asn1.C102_resolved_partial",
    "Asn1.C102_only_partial",
    "Asn1.C102_unique_partial",
    "Asn1.C102_known_partial",
    "Asn1.C102_exclusive_partial",
    "Asn1.C102_inside_partial",
    "Asn1.C102_capture_violation",
    "Asn1.C102_optional_violation",
    "Asn1.C102_value_violation",
    "Asn1.C102_argument_violation",
    "Asn1.C102_uper_violation",
    "Asn1.C102_tail_violation"
   ],
   "note": "Types of unbounded nesting with as many arguments as parameters (an error before otherwise, AcnCreateFromAntlr.fs:1524-1526) and distinct names. False otherwise: a parameter of an enclosing type captures a name of a type inside it (C102_capture_violation, C102_inside_partial gives the condition); a determinant may stand in an OPTIONAL component that is absent (C102_optional_violation); values of present-when are compared with the range only for the first alternative (C102_value_violation); an actual parameter for a parameter of a named type is not checked (C102_argument_violation); a determinant encoded in uPER is not checked for its range (C102_uper_violation); names after that of a parameter are ignored (C102_tail_violation). present-when expressions are in C88 and C89 and not here."
  },
  {
   "property": "C103",
   "status": "partial",
   "theorems": [
    "Asn1.C103_constraint_partial",
    "Asn1.C103_meaning_partial",
    "Asn1.C103_sound_partial",
    "Asn1.C103_accepts_partial",
    "Asn1.C103_decides_partial",
    "Asn1.C103_check_partial",
    "Asn1.C103_roundtrip_partial",
    "Asn1.C103_late_violation",
    "Asn1.C103_empty_violation"
   ],
   "note": "Types and constraints of unbounded nesting whose values name no component twice and no value of a type that is a reference (Plainly); for names, DEFAULTs and ENUMERATED items also as in C97 (NTy.Plain, NTy.Defaults). The check alone is too weak: a range on a string outside FROM and a negative SIZE pass it and are refused only by the translation (C103_late_violation). A reference whose constraints leave no ENUMERATED item is accepted, though the same constraints in one place are refused (C103_empty_violation). Choices of the specification: the mark OPTIONAL on a mandatory component counts as allowed in a constraint, and a type without values (INTEGER (5..1)) as legal. Legal but not translated: sizes from 2^32, constraints on NULL. Not modelled: clashes of names with keywords, modules and types; exports; included types and MIN..MAX (C99); NumericString, RELATIVE-OID and time types."
  },
  {
   "property": "C104",
   "status": "partial",
   "theorems": [
    "Asn1.C104_meaning_partial",
    "Asn1.C104_unique_partial",
    "Asn1.C104_sound_partial",
    "Asn1.C104_values_partial",
    "Asn1.C104_ends",
    "Asn1.C104_unfolds_partial",
    "Asn1.C104_imports_partial",
    "Asn1.C104_accepts_partial",
    "Asn1.C104_decides_partial",
    "Asn1.C104_private_violation",
    "Asn1.C104_external_violation",
    "Asn1.C104_again_violation",
    "Asn1.C104_capture_violation",
    "Asn1.C104_stray_violation",
    "Asn1.C104_valueImport_violation"
   ],
   "note": "Any number of modules with types of unbounded nesting; no module has two clauses that import from the same module (the second one would be dropped when implicit imports are merged), and the name of a reference is not that of a module from which there are imports. False otherwise: the type of a value with such a name is taken from that module (C104_capture_violation), and a reference with such a name that means nothing is accepted (C104_stray_violation). Legal modules are refused if a module uses a type that is not in its own EXPORTS list (C104_private_violation), if B.T is used where T means another type (C104_external_violation), and if a name is imported from a module that imported it (C104_again_violation); SupportedNames says exactly what is left (C104_decides_partial). A type B.T that only a value uses is missing from the imports (C104_valueImport_violation). Recursive types and modules that import each other are refused (C84). Not modelled: keywords and names that differ only in case, value references inside constraints (only which assignment their name leads to), parameterized types (C101), COMPONENTS OF."
  },
  {
   "property": "C105",
   "status": "partial",
   "theorems": [
    "Asn1.C105_valid_partial",
    "Asn1.C105_passes_partial",
    "Asn1.C105_bounds_partial",
    "Asn1.C105_items_partial",
    "Asn1.C105_booleans_partial",
    "Asn1.C105_sizes_partial",
    "Asn1.C105_elements_partial",
    "Asn1.C105_components_partial",
    "Asn1.C105_alternatives",
    "Asn1.C105_references",
    "Asn1.C105_fragment_violation",
    "Asn1.C105_fixedReference_violation",
    "Asn1.C105_nul_violation",
    "Asn1.C105_strValue_violation",
    "Asn1.C105_octetsExcept_violation",
    "Asn1.C105_bitsValue_violation",
    "Asn1.C105_noCase_violation",
    "Asn1.C105_null_violation",
    "Asn1.C105_except_violation"
   ],
   "note": "Types of unbounded nesting under CTy.TestOk (sizes that the constraints admit, an alphabet without NUL or the whole of ASCII, no constraints on a whole SEQUENCE or CHOICE, for every mandatory component a test case or a valid zero value), for C105_passes_partial also under the conditions of C80, C35 and C94, without REAL. False otherwise, with a test case that is not a value of the type: fragmentation sizes below the minimum (C105_fragment_violation), a reference that fixes the size of a type of variable size (C105_fixedReference_violation), an alphabet with NUL (C105_nul_violation), single values of strings (C105_strValue_violation), values excluded from an OCTET STRING (C105_octetsExcept_violation), single values of a BIT STRING (C105_bitsValue_violation), a component whose type has no test case (C105_noCase_violation). Edges are missed with EXCEPT (C105_except_violation), and NULL components are never varied, so that a type may have no test case at all (C105_null_violation). Empty SEQUENCE OF values are not tested. Not modelled: test cases of ACN, of WITH COMPONENT(S) constraints and of time types."
  },
  {
   "property": "C106",
   "status": "partial",
   "theorems": [
    "Asn1.C106_components_partial",
    "Asn1.C106_sequence",
    "Asn1.C106_values_partial",
    "Asn1.C106_default_partial",
    "Asn1.C106_accepts_partial",
    "Asn1.C106_flags_size",
    "Asn1.C106_reference_violation",
    "Asn1.C106_capture_violation",
    "Asn1.C106_dropped_violation",
    "Asn1.C106_noFlags_violation",
    "Asn1.C106_special_violation",
    "Asn1.C106_parts_violation"
   ],
   "note": "Any number of assignments, types and values of unbounded nesting. Values: no named bit beyond the size of its type, named values of ENUMERATED types are assigned in the module of the type, no value is named cr, lf, ht or nul, and (only for acceptance) the notation avoids what the compiler does not know of (GEnv.Avoids). False otherwise: COMPONENTS OF a type that is a name of a SEQUENCE type is refused (C106_reference_violation), the name of an ENUMERATED value is looked up in the module of the type and may mean another value there (C106_capture_violation), a named bit beyond the size is dropped without a message (C106_dropped_violation), {} is refused for a BIT STRING (C106_noFlags_violation), a value assignment named cr is not heeded in a string list (C106_special_violation), names of strings in a string list and lists for NumericString are refused (C106_parts_violation). Not modelled: the values in constraints (mapped by the same function), constraints on a reference to a BIT STRING type (the length of a value given by named bits follows the type behind the reference, so that such a value may be refused), time types, named bits given by a reference."
  },
  {
   "property": "C107",
   "status": "partial",
   "theorems": [
    "Asn1.C107_numbers_partial",
    "Asn1.C107_accepts_partial",
    "Asn1.C107_unique",
    "Asn1.C107_stable",
    "Asn1.C107_negative_violation",
    "Asn1.C107_middle_violation",
    "Asn1.C107_keyword_violation",
    "Asn1.C107_values_violation",
    "Asn1.C107_capture_violation",
    "Asn1.C107_loop_violation"
   ],
   "note": "Any number of components and value assignments. No value may be named iso, itu-t, ccitt, joint-iso-itu-t or joint-iso-ccitt: in a RELATIVE-OID the compiler takes such a name for the number of X.660 (C107_capture_violation). Legal values are refused if they have a name of X.660 after a number (C107_keyword_violation), an INTEGER value as a component of its own, or Module.value (C107_values_violation). Values that are not legal are accepted: a negative number through name(value) (C107_negative_violation), an OBJECT IDENTIFIER value in the middle of another (C107_middle_violation). The compiler does not end for a RELATIVE-OID value that contains itself (C107_loop_violation). The specification lets a name of X.660 after a number stand for nothing if there is also a value of that name. Not modelled: how the grammar tells an OBJECT IDENTIFIER value from other values in braces ({ base } and { base 5 } also fit other alternatives of the grammar), the module in which a bare name is looked up (C104)."
  },
  {
   "property": "C108",
   "status": "partial",
   "theorems": [
    "Asn1.C108_bits",
    "Asn1.C108_hex",
    "Asn1.C108_octets",
    "Asn1.C108_int",
    "Asn1.C108_string_partial",
    "Asn1.C108_quote_violation",
    "Asn1.C108_lines_violation",
    "Asn1.C108_real2_partial",
    "Asn1.C108_real10_partial",
    "Asn1.C108_base",
    "Asn1.C108_tenth_violation",
    "Asn1.C108_tiny_violation",
    "Asn1.C108_zero_violation"
   ],
   "note": "Texts of any length. Character strings: one line without quotation marks; the compiler keeps both of two quotation marks that stand for one (C108_quote_violation) and keeps line breaks with the blanks around them (C108_lines_violation). REAL: base 2 with 2^e in the range of doubles, base 10 with exponents 0 to 22 and mantissas below 2^53. Outside: {mantissa 3, base 10, exponent -1} is not the double nearest to 0.3 even with a perfect power function (C108_tenth_violation), {mantissa 1024, base 2, exponent -1080} becomes 0 (C108_tiny_violation), {mantissa 0, base 2, exponent 2000} becomes NaN (C108_zero_violation). Math.Pow is a parameter, assumed to be exact where the result is a double (PowExact, which a correctly rounded function meets); the conversion of integers to doubles and the product are assumed to round correctly as in IEEE 754. Not modelled: the lexer, numbers with a decimal point (Double.Parse of .NET)."
  },
  {
   "property": "C109",
   "status": "partial",
   "theorems": [
    "Asn1.C109_all_distinct",
    "Asn1.C109_all_violation",
    "Asn1.C109_distinct",
    "Asn1.C109_ends",
    "Asn1.C109_own_names",
    "Asn1.C109_enumerants_partial",
    "Asn1.C109_enumerant_violation",
    "Asn1.C109_crash_partial",
    "Asn1.C109_case_violation"
   ],
   "note": "Any number of alternatives, for the policy SelectiveEnumerants, which is the default for C. Different from the items of ENUMERATED types only if no item ends in PRESENT (C109_enumerant_violation: on-PRESENT and an alternative on give the same enumerator twice). Legal specifications are refused with an error message when no unused part of the key is left: the first round is characterised (C109_crash_partial), and two alternatives of one CHOICE that differ only in capital letters are always refused (C109_case_violation). Letters are compared as in a culture that pairs A-Z with a-z. With -renamePolicy 2 (AllEnumerants) the names are different if the compiler finishes (C109_all_distinct), but it goes on forever for a CHOICE inside a CHOICE whose alternatives need new names (C109_all_violation). Not modelled: the policy AlwaysPrefixTypeName."
  },
  {
   "property": "C110",
   "status": "partial",
   "theorems": [
    "Asn1.C110_selects_partial",
    "Asn1.C110_accepts",
    "Asn1.C110_open_violation",
    "Asn1.C110_word_violation"
   ],
   "note": "All ranges of INTEGER with literals as ends. A < beside MIN or MAX is dropped without a message, so that INTEGER (0..10) (MIN<..<MAX) contains 0 and 10 (C110_open_violation). With a word size of 4 octets the check still uses the limits of 64 bits (C110_word_violation). Not modelled here: ends given by names, which the check does not look at (C103)."
  },
  {
   "property": "C111",
   "status": "partial",
   "theorems": [
    "Asn1.C111_value",
    "Asn1.C111_uper_partial",
    "Asn1.C111_acn",
    "Asn1.C111_nearest_partial",
    "Asn1.C111_acn_nearest_partial",
    "Asn1.C111_zero_violation",
    "Asn1.C111_large_violation"
   ],
   "note": "Every float except NaN and, in uPER, -0, which is read as +0 (C111_zero_violation). Numbers with more digits: below the range in which rounding gives infinity. A finite number beyond it is read as infinity and the decoder reports success (C111_large_violation). Small doubles below 2^-971 are subject to C19. The conversions between float and double of the C compiler are taken to be those of IEEE 754 (round to nearest, ties to even); C111_value, C111_nearest_partial and C111_acn_nearest_partial prove that the modelled ones are. After a failed read BitStream_DecodeReal_fp32 converts a double that was never set, which C leaves undefined; the model converts 0 there."
  },
  {
   "property": "C112",
   "status": "partial",
   "theorems": [
    "Asn1.C112_roundtrip_partial",
    "Asn1.C112_special",
    "Asn1.C112_value_partial",
    "Asn1.C112_small_violation",
    "Asn1.C112_safe_partial",
    "Asn1.C112_negate_violation",
    "Asn1.C112_multiply_violation",
    "Asn1.C112_past_end_violation",
    "Asn1.C112_peer_partial",
    "Asn1.C112_read_partial",
    "Asn1.C112_nearest_partial",
    "Asn1.C112_short_exponent",
    "Asn1.C112_zero_violation",
    "Asn1.C112_subnormal_violation",
    "Asn1.C112_peer_violation"
   ],
   "note": "Round trip: every float of magnitude at least 2^-104, +0 and the infinities. Every smaller number comes back as 0 and the decoder reports success, because the power of two in the divisor becomes infinite (C112_small_violation, for all of them); -0 comes back as +0 (C112_zero_violation). What is sent stands for the number for all normal floats; subnormal ones are sent with a bit that they do not have (C112_subnormal_violation). A double that a peer sends is read as 0 already below 2^-75 although it is a float, because its mantissa has 53 bits (C112_peer_violation). Products and quotients of float are modelled as those of double rounded to float, as in C with FLT_EVAL_METHOD 0; for the quotient this uses that double rounding is harmless for 24 and 53 bits, which is not proved here. From a peer with double every float of at least 2^-75 arrives (C112_peer_partial); from any peer every normal float whose encoding has a power of two of at least -127 and a mantissa of at most 64 bits (C112_read_partial). Safety (C112_safe_partial) has the conditions of C58, and outside them the decoder has undefined behaviour (C112_negate_violation, C112_multiply_violation, C112_past_end_violation). Not modelled: USE_LDEXP. Under the same conditions every number from 2^-126 up to what still rounds to a float is read as the nearest float, ties to even (C112_nearest_partial). Not proved: rounding below 2^-126 and above."
  },
  {
   "property": "C113",
   "status": "partial",
   "theorems": [
    "Asn1.C113_keywords_partial",
    "Asn1.C113_distinct_partial",
    "Asn1.C113_nested_partial",
    "Asn1.C113_default_partial",
    "Asn1.C113_prefix",
    "Asn1.C113_members_partial",
    "Asn1.C113_duplicates",
    "Asn1.C113_struct_partial",
    "Asn1.C113_exist_violation",
    "Asn1.C113_nested_violation",
    "Asn1.C113_inline_violation",
    "Asn1.C113_prefix_violation"
   ],
   "note": "Any number of components, for the target language C. From the text to the struct: C113_struct_partial. Keywords of the first C standard are avoided in all cases but one: a prefix given with -fp can make a keyword (C113_prefix_violation, i and f). Keywords that came in 1999 are kept (C113_inline_violation). With -fp AUTO the members stay different for types of type assignments; inside another type int and a-int in a component a both become a_int (C113_nested_violation). A component exist beside an OPTIONAL one gives two members exist (C113_exist_violation). Not modelled: the clashes with types and modules that concern Ada and Scala only, types written in value assignments, ASN1SCC_DISABLE_KEYW_CHECKS."
  }
 ]
}